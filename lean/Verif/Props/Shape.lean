import Verif.Lemmas.Near
import Verif.Props.Padding
/-! # C151: the contents of the sections have no influence on anything else in the output -/
namespace Dld
open Writer Spec

namespace Writer
variable {w w' : Writer}

theorem finalizeSec_near (sched : Sched) (h : Alike w w') {s s' : Section} (hs : s'.blank = s.blank) :
    Kin (fun a b : Section => b.blank = a.blank) (finalizeSec sched w s) (finalizeSec sched w' s') := by
  have hlink : ∀ {a b : Section}, b.blank = a.blank → Kin (fun a b : Section => b.blank = a.blank)
      (match a.link with | none => .ok a | some p => w.sec p >>= fun l => .ok { a with sh := { a.sh with sh_link := u32 l.index } })
      (match b.link with | none => .ok b | some p => w'.sec p >>= fun l => .ok { b with sh := { b.sh with sh_link := u32 l.index } }) := by
    intro a b hab
    have hb := (Section.blank_iff.1 hab).2.2.1
    rw [hb]
    cases hl : a.link with
    | none => exact .ok hab
    | some p =>
      refine (sec_near h p).bind fun l l' hl' => .ok ?_
      rw [(Section.blank_iff.1 hl').2.1]
      have := Section.sh_rel hab fun x => { x with sh_link := u32 l.index }
      rw [hb, hl] at this
      exact this
  cases h with
  | mk ss h =>
    unfold finalizeSec
    rw [(Section.blank_iff.1 hs).2.2.2.1]
    dsimp only
    cases s.kind with
    | symtab => exact (Section.modifyChunk_rel hs 0 fun _ _ _ => rfl).bind fun _ _ hab => hlink hab
    | dynsym => exact (Section.modifyChunk_rel hs 0 fun _ _ _ => rfl).bind fun _ _ hab => hlink hab
    | copyRel => exact hlink (setSize_rel _ hs)
    | plain => exact hlink hs
    | plt => exact hlink hs
    | shstr => exact hlink hs
    | symstr => exact hlink hs
    | dynstr => exact hlink hs
    | hash => exact hlink hs
    | gnuHash => exact hlink hs

theorem _root_.Dld.Kin.of_ok {α β : Type} {R : α → β → Prop} {a : α} {b : β} (h : Kin R (.ok a) (.ok b)) : R a b := by
  cases h; assumption

theorem contents_rel {s s' : Section} (h : s'.blank = s.blank) : (contents s').length = (contents s).length := by
  have key : ∀ {l l' : List Chunk}, l'.map Chunk.blank = l.map Chunk.blank → (l'.flatMap (·.data)).length = (l.flatMap (·.data)).length := by
    intro l
    induction l with
    | nil => intro l' h; cases l' with
      | nil => rfl
      | cons _ _ => cases h
    | cons a l ih => intro l' h; cases l' with
      | nil => cases h
      | cons b l' =>
        rw [List.map_cons, List.map_cons, List.cons.injEq] at h
        rw [List.flatMap_cons, List.flatMap_cons, List.length_append, List.length_append, (Chunk.blank_iff.1 h.1).2.1, ih h.2]
  exact key (Section.blank_iff.1 h).2.2.2.2.2

theorem writeSections_rel {sched : Sched} (ha : Alike w w') : ∀ {l l' : List Section} {o : Nat}, l'.map Section.blank = l.map Section.blank →
    Kin (fun x y : Bytes × List Section => y.1.length = x.1.length ∧ y.2.map Section.blank = x.2.map Section.blank) (writeSections sched w o l) (writeSections sched w' o l')
  | [], [], _, _ => .ok ⟨rfl, rfl⟩
  | s :: l, s' :: l', o, h => by
    rw [List.map_cons, List.map_cons, List.cons.injEq] at h
    unfold writeSections
    refine (finalizeSec_near sched ha h.1).bind fun t t' ht => ?_
    rw [(Section.blank_iff.1 h.1).2.2.2.2.1, Section.sizeOnDisk_rel ht]
    refine (writeSections_rel ha h.2).bind fun ⟨b1, b2⟩ ⟨c1, c2⟩ ⟨g1, g2⟩ => .ok ⟨?_, ?_⟩
    · have := contents_rel ht
      simp only [contents] at this
      simp only [List.length_append] at g1 ⊢
      omega
    · show _ :: _ = _ :: _
      rw [ht]
      exact congrArg _ g2
  | [], _ :: _, _, h => nomatch h
  | _ :: _, [], _, h => nomatch h

theorem diff_append {a a' b b' : Bytes} {k : Nat} (hl : a'.length = a.length) (h : (a' ++ b')[k]? ≠ (a ++ b)[k]?) :
    (k < a.length ∧ a'[k]? ≠ a[k]?) ∨ (a.length ≤ k ∧ b'[k - a.length]? ≠ b[k - a.length]?) := by
  by_cases c : k < a.length
  · rw [List.getElem?_append_left (hl ▸ c), List.getElem?_append_left c] at h
    exact .inl ⟨c, h⟩
  · rw [List.getElem?_append_right (by omega), List.getElem?_append_right (by omega), hl] at h
    exact .inr ⟨by omega, h⟩

theorem writeSections_diff {sched : Sched} (ha : Alike w w') : ∀ {l l' : List Section} {o : Nat} {bs bs' : Bytes} {secs secs' : List Section},
    writeSections sched w o l = .ok (bs, secs) → writeSections sched w' o l' = .ok (bs', secs') → l'.map Section.blank = l.map Section.blank →
    (∀ (i : Nat) (s t : Section), l[i]? = some s → secs[i]? = some t → t.sh.sh_offset = s.sh.sh_offset ∧
      t.sizeOnDisk = s.sizeOnDisk ∧ (contents t).length = t.sizeOnDisk) →
    (∀ s ∈ l, o ≤ s.sh.sh_offset) → (l.Pairwise fun a b => a.sh.sh_offset + a.sizeOnDisk ≤ b.sh.sh_offset) →
    ∀ (k : Nat), bs'[k]? ≠ bs[k]? → ∃ t ∈ secs, t.sh.sh_offset ≤ o + k ∧ o + k < t.sh.sh_offset + t.sizeOnDisk := by
  intro l
  induction l with
  | nil =>
    intro l' o bs bs' secs secs' h h' hl _ _ _ k hk
    cases l' with
    | cons _ _ => cases hl
    | nil => cases h; cases h'; exact absurd rfl hk
  | cons a l ih =>
    intro l' o bs bs' secs secs' h h' hl hc ho hp k hk
    cases l' with
    | nil => cases hl
    | cons a' l' =>
      rw [List.map_cons, List.map_cons, List.cons.injEq] at hl
      simp only [writeSections, bind_ok, Prod.exists] at h h'
      obtain ⟨t, h1, bs1, secs1, h2, h3⟩ := h
      obtain ⟨t', h1', bs1', secs1', h2', h3'⟩ := h'
      cases h3
      cases h3'
      have hf := finalizeSec_near sched ha hl.1
      rw [h1, h1'] at hf
      have ht : t'.blank = t.blank := hf.of_ok
      obtain ⟨c1, c2, c3⟩ := hc 0 a t rfl rfl
      have hoa := ho a (by simp)
      have hmax : max o a.sh.sh_offset = a.sh.sh_offset := by omega
      rw [(Section.blank_iff.1 hl.1).2.2.2.2.1, Section.sizeOnDisk_rel ht, hmax] at h2'
      rw [hmax] at h2
      rw [List.pairwise_cons] at hp
      have key := ih h2 h2' hl.2 (fun i s t hs ht => hc (i + 1) s t (by simpa using hs) (by simpa using ht))
        (fun s hs => by rw [c2]; exact hp.1 s hs) hp.2
      have hct : (List.flatMap (fun x => x.data) t.chunks) = contents t := rfl
      have hct' : (List.flatMap (fun x => x.data) t'.chunks) = contents t' := rfl
      have hlen := contents_rel ht
      rw [hct, hct', (Section.blank_iff.1 hl.1).2.2.2.2.1, List.append_assoc, List.append_assoc] at hk
      rcases diff_append rfl hk with ⟨_, h⟩ | ⟨hk1, hk⟩
      · exact absurd rfl h
      · rw [List.length_replicate] at hk1 hk
        rcases diff_append hlen hk with ⟨hk2, _⟩ | ⟨hk2, hk⟩
        · exact ⟨t, List.mem_cons_self, by omega, by omega⟩
        · obtain ⟨u, hu, g1, g2⟩ := key _ hk
          refine ⟨u, List.mem_cons_of_mem _ hu, ?_, ?_⟩ <;> omega

end Writer

variable {opts : Options} {ops : List Op} {sched : Sched} {w w' x' : Writer} {file file' : Bytes} {secs secs' : List Section}

theorem GoodRun.diff (h : GoodRun opts ops sched w w' file secs) (ha : Alike w' x') (hx : x'.writeToDisk sched = .ok (file', secs')) :
    file'.length = file.length ∧ secs'.map Section.blank = secs.map Section.blank ∧
      ∀ k, file'[k]? ≠ file[k]? → ∃ e ∈ shdrs file, e.offset ≤ k ∧ k < e.offset + e.fileSize := by
  have hr := h.run.reads h.good h.names h.fit
  rw [hr.shdrs]
  obtain ⟨hdr, st, hl⟩ := h.run.laid h.good.flags
  obtain ⟨w0, pn, h0, hI⟩ := h.run.hist.winv
  have hsf := h.run.hist.secFacts
  obtain ⟨_, _, h3, h4⟩ := hl.count hsf hI h0 h.names h.good.dynamic
  obtain ⟨nul, rest, hw, np, nk, nl, no, na⟩ := h.run.null_head
  have hwr := h.run.write
  simp only [writeToDisk, bind_ok, Prod.exists] at hwr hx
  obtain ⟨body, secs1, h1, h2⟩ := hwr
  obtain ⟨body', secs1', h1', h2'⟩ := hx
  simp only [Except.ok.injEq, Prod.mk.injEq] at h2 h2'
  obtain ⟨hfile, rfl⟩ := h2
  obtain ⟨hfile', rfl⟩ := h2'
  have e : x'.eh = w'.eh ∧ x'.programHeaders = w'.programHeaders := by rw [ha.eq]; exact ⟨rfl, rfl⟩
  rw [e.2] at h1'
  rw [e.1, e.2] at hfile'
  have hrel := writeSections_rel (sched := sched) ha (o := sizeofHeader + w'.programHeaders.length * sizeofProgramHeader) ha.secs
  rw [h1, h1'] at hrel
  obtain ⟨hbl, hsl⟩ := hrel.of_ok
  have hbl : body'.length = body.length := hbl
  have hsl : secs1'.map Section.blank = secs1.map Section.blank := hsl
  have htab : serVec (fun s : Section => serSectionHeader s.sh) secs1' = serVec (fun s : Section => serSectionHeader s.sh) secs1 := by
    have : ∀ l : List Section, serVec (fun s : Section => serSectionHeader s.sh) l = serVec (fun s : Section => serSectionHeader s.sh) (l.map Section.blank) := by
      intro l
      unfold serVec
      rw [List.flatMap_map]
      rfl
    rw [this, hsl, ← this]
  rw [htab] at hfile'
  have hfacts : ∀ (i : Nat) (s t : Section), w'.sections[i]? = some s → secs1[i]? = some t →
      t.sh.sh_offset = s.sh.sh_offset ∧ t.sizeOnDisk = s.sizeOnDisk ∧ (contents t).length = t.sizeOnDisk := by
    intro i s t hs ht
    obtain ⟨s', hs', hf', _⟩ := h.run.finalized ht
    rw [hs] at hs'; cases hs'
    exact ⟨hf'.offset, h.run.disk_eq (List.mem_of_getElem? hs) hf', h.run.contents_length h.good.clean ht⟩
  have hhead : (serHeader w'.eh ++ serVec serProgramHeader w'.programHeaders).length =
      sizeofHeader + w'.programHeaders.length * sizeofProgramHeader := by
    rw [List.length_append, serVec, length_flatMap_const length_serProgramHeader]
    have : (serHeader w'.eh).length = sizeofHeader := by rw [hl.eh]; simp [serHeader, initHeader, sizeofHeader]; rfl
    rw [this]
  refine ⟨by rw [← hfile, ← hfile']; simp only [List.length_append, hbl], hsl, ?_⟩
  have hs' := ha.secs
  rw [hw] at h1 hs'
  cases hx' : x'.sections with
  | nil => rw [hx'] at hs'; cases hs'
  | cons nul' rest' =>
  rw [hx', List.map_cons, List.map_cons, List.cons.injEq] at hs'
  rw [hx'] at h1'
  simp only [writeSections, bind_ok, Prod.exists] at h1 h1'
  obtain ⟨tn, t1, bs, ss, t2, t3⟩ := h1
  obtain ⟨tn', t1', bs', ss', t2', t3'⟩ := h1'
  cases t3
  cases t3'
  have hf := finalizeSec_near sched ha hs'.1
  rw [t1, t1'] at hf
  have htn : tn'.blank = tn.blank := hf.of_ok
  have hdr' : hdr = sizeofHeader + w'.programHeaders.length * sizeofProgramHeader := h4
  obtain ⟨n1, n2, n3⟩ := hfacts 0 nul tn (by rw [hw]; rfl) rfl
  have hdrop : w'.sections.drop 1 = rest := by rw [hw]; rfl
  have hinv := hl.inv
  rw [hdrop] at hinv
  have hz : tn.sizeOnDisk = 0 := by
    obtain ⟨z, hz, _, _, _, _, _, hz1, _⟩ := (C48_section_table h).2.2.2.2.1
    rw [hr.shdrs] at hz
    have hz : tn.sh.toSpec = z := Option.some.inj hz
    have : tn.sh.sh_size = 0 := by rw [← hz] at hz1; exact hz1
    unfold Section.sizeOnDisk
    rw [this]; simp
  have nc : contents tn = [] := List.eq_nil_of_length_eq_zero (by rw [n3, hz])
  have nc' : contents tn' = [] := List.eq_nil_of_length_eq_zero (by rw [contents_rel htn, nc]; rfl)
  have no' : nul'.sh.sh_offset = 0 := by rw [(Section.blank_iff.1 hs'.1).2.2.2.2.1]; exact no
  rw [no] at t2 hfile
  rw [no'] at t2' hfile'
  rw [hz, Nat.max_eq_left (Nat.zero_le _), Nat.add_zero] at t2
  rw [Section.sizeOnDisk_rel htn, hz, Nat.max_eq_left (Nat.zero_le _), Nat.add_zero] at t2'
  have key := writeSections_diff ha t2 t2' hs'.2 (fun i s t hs ht => hfacts (i + 1) s t (by rw [hw]; simpa using hs) (by simpa using ht))
    (fun s hs => by rw [← hdr']; exact (hinv.secs s hs).1) (hinv.secsAsc.imp fun h => h.1)
  have hct : (List.flatMap (fun x => x.data) tn.chunks) = contents tn := rfl
  have hct' : (List.flatMap (fun x => x.data) tn'.chunks) = contents tn' := rfl
  rw [hct, nc] at hfile hbl
  rw [hct', nc'] at hfile' hbl
  simp only [Nat.zero_sub, List.replicate_zero, List.nil_append, no, no'] at hfile hfile' hbl
  intro k hk
  rw [← hfile, ← hfile', List.append_assoc (_ ++ _), List.append_assoc (_ ++ _)] at hk
  rcases diff_append rfl hk with ⟨_, h⟩ | ⟨k1, hk⟩
  · exact absurd rfl h
  rcases diff_append hbl hk with ⟨k2, hk⟩ | ⟨_, h⟩
  · obtain ⟨t, ht', g1, g2⟩ := key _ hk
    rw [hhead] at g1 g2 k1
    refine ⟨t.sh.toSpec, List.mem_map.2 ⟨t, List.mem_cons_of_mem _ ht', rfl⟩, by show t.sh.sh_offset ≤ k; omega, ?_⟩
    show k < t.sh.sh_offset + EShdr.fileSize _
    have : t.sh.toSpec.fileSize = t.sizeOnDisk := by
      simp only [EShdr.fileSize, SectionHeader.toSpec, Section.sizeOnDisk]
      by_cases h8 : t.sh.sh_type = SHT_NOBITS
      · simp [h8, SHT_NOBITS]
      · rw [if_pos h8]
        exact if_neg h8
    omega
  · exact absurd rfl h

namespace Linker
variable {env env' : Env} {l : Linker} {sched : LinkSched} {fuel : Nat} {file file' : Bytes}

theorem undefinedNames_alike {w w' : Writer} (h : Alike w w') : ∀ u : List SymbolRef, undefinedNames w' u = undefinedNames w u
  | [] => rfl
  | r :: u => by
    unfold undefinedNames
    rw [symbolName_alike h, undefinedNames_alike h u]

/-- how two files come from writers that are alike -/
def FilesAlike (env env' : Env) (l : Linker) (sched : LinkSched) (fuel : Nat) (file file' : Bytes) : Prop :=
  ∃ w0 x0 w x secs secs', gathered env l sched fuel = some (.ok w0) ∧ gathered env' l sched fuel = some (.ok x0) ∧
    w0.computeSections sched.toSched = .ok w ∧ x0.computeSections sched.toSched = .ok x ∧ Alike w0 x0 ∧ Alike w x ∧
    w.writeToDisk sched.toSched = .ok (file, secs) ∧ x.writeToDisk sched.toSched = .ok (file', secs')

theorem writeToDisk_panics (sched : Sched) (w : Writer) : Panics (w.writeToDisk sched) := by
  have key : ∀ (l : List Section) (o : Nat), Panics (writeSections sched w o l) := by
    intro l
    induction l with
    | nil => intro o; exact .ok _
    | cons s l ih =>
      intro o
      unfold writeSections
      exact .bind (finalizeSec_panics _ _ _) fun t => .bind (ih _) fun _ => .ok _
  exact .bind (key _ _) fun _ => .ok _

theorem link_near (hv : sched.Valid) (ho : sched.toSched.Oblivious) (hE : SameShapes env env' l) :
    KinO (FilesAlike env env' l sched fuel) (link env l sched fuel) (link env' l sched fuel) := by
  rw [link_eq, link_eq]
  have hg := gathered_near hE hv fuel
  cases h1 : gathered env l sched fuel with
  | none =>
    cases h2 : gathered env' l sched fuel with
    | none => exact .none
    | some y => rw [h1, h2] at hg; cases hg; exact .right _
  | some x =>
    cases h2 : gathered env' l sched fuel with
    | none => rw [h1, h2] at hg; cases hg; exact .left _
    | some y =>
      rw [h1, h2] at hg
      have hxy : Kin Alike x y := by
        cases hg with
        | some h => exact h
        | left y => exact .left _
        | right x => exact .right _
      cases hxy with
      | err e => exact .some (.err e)
      | left y => exact .left _
      | right x => exact .right _
      | ok hab =>
        rename_i w0 x0
        refine .some ?_
        show Kin _ (finish l sched w0) (finish l sched x0)
        unfold finish
        have hc := computeSections_near ho hab
        cases h3 : w0.computeSections sched.toSched with
        | error e => rw [computeSections_panics _ _ e h3]; exact .left _
        | ok w =>
          cases h4 : x0.computeSections sched.toSched with
          | error e => rw [computeSections_panics _ _ e h4]; exact .right _
          | ok x =>
            rw [h3, h4] at hc
            have hwx : Alike w x := hc.of_ok
            simp only [ok_bind]
            rw [undefinedSymbols_alike hwx, undefinedNames_alike hwx]
            refine .ite ?_ ?_
            · exact (Kin.refl _).bind fun a b hab => by rw [hab]; exact .err _
            · cases h5 : w.writeToDisk sched.toSched with
              | error e => rw [writeToDisk_panics _ _ e h5]; exact .left _
              | ok f =>
                cases h6 : x.writeToDisk sched.toSched with
                | error e => rw [writeToDisk_panics _ _ e h6]; exact .right _
                | ok f' => exact .ok ⟨w0, x0, w, x, f.2, f'.2, h1, h2, h3, h4, hab, hwx, h5, h6⟩

/-- **C151.** Take two sets of inputs with the same headers, symbols and relocations and sections of the same sizes. If the first can be linked, then either the linker crashes on the second
or it writes a file of the same length, which differs from the first only inside sections. -/
theorem C151_layout (hv : sched.Valid) (ho : sched.toSched.Oblivious) (hE : SameShapes env env' l) (hc : CleanFiles env l) (hf : Fits env l sched fuel)
    (h : link env l sched fuel = some (.ok file)) :
    link env' l sched fuel = some (.error .panic) ∨ ∃ file', link env' l sched fuel = some (.ok file') ∧ file'.length = file.length ∧
      ∀ k, file'[k]? ≠ file[k]? → ∃ e ∈ shdrs file, e.offset ≤ k ∧ k < e.offset + e.fileSize := by
  have hn := link_near (fuel := fuel) hv ho hE
  rw [h] at hn
  generalize hy : link env' l sched fuel = y at hn
  cases hn with
  | right x => exact .inl rfl
  | some hn =>
    cases hn with
    | right x => exact .inl rfl
    | ok hab =>
      rename_i file'
      obtain ⟨w0, x0, w, x, secs, secs', g1, g2, g3, g4, a1, a2, g5, g6⟩ := hab
      refine .inr ⟨file', rfl, ?_⟩
      obtain ⟨log, loaded, v0, v, s, q1, q2, q3, q4⟩ := link_ok hv h
      rw [g1] at q1
      cases q1
      have := q3.compute
      rw [g3] at this
      cases this
      have hf := hf _ _ _ _ g1 g3 q3.write
      have h4 := calls_spec hv q2 q3.hist hf.symstr
      have G : GoodRun l.options (opsOf log) sched.toSched w0 w file s := ⟨q3, h4.good hc, h4.namesClean hc, hf.names, hf.numbers⟩
      have := G.diff a2 g6
      exact ⟨this.1, this.2.2⟩

/-- **C151, failures.** If the first set of inputs is refused, then the second is refused with the same message, unless one of the two links crashes. -/
theorem C151_failure (hv : sched.Valid) (ho : sched.toSched.Oblivious) (hE : SameShapes env env' l) {e : Fail} (he : e ≠ .panic)
    (h : link env l sched fuel = some (.error e)) : link env' l sched fuel = some (.error .panic) ∨ link env' l sched fuel = some (.error e) := by
  have hn := link_near (fuel := fuel) hv ho hE
  rw [h] at hn
  generalize link env' l sched fuel = y at hn
  cases hn with
  | right x => exact .inl rfl
  | left y => exact absurd rfl he
  | some hn =>
    cases hn with
    | right x => exact .inl rfl
    | left y => exact absurd rfl he
    | err e => exact .inr rfl

/-- **C151, tables.** If both can be linked, the two files have the same ELF header, program headers, section headers and symbol table. -/
theorem C151_tables (hv : sched.Valid) (ho : sched.toSched.Oblivious) (hE : SameShapes env env' l) (hc : CleanFiles env l) (hf : Fits env l sched fuel)
    (hc' : CleanFiles env' l) (hf' : Fits env' l sched fuel) (h : link env l sched fuel = some (.ok file)) (h' : link env' l sched fuel = some (.ok file')) :
    decodeEhdr file' = decodeEhdr file ∧ phdrs file' = phdrs file ∧ shdrs file' = shdrs file ∧ ∀ n, symbolsNamed file' n = symbolsNamed file n := by
  have hn := link_near (fuel := fuel) hv ho hE
  rw [h, h'] at hn
  have hab : FilesAlike env env' l sched fuel file file' := by
    cases hn with
    | some hn => exact hn.of_ok
  obtain ⟨w0, x0, w, x, secs, secs', g1, g2, g3, g4, a1, a2, g5, g6⟩ := hab
  have main : ∀ {env : Env} {file : Bytes} {w0 w : Writer} {secs : List Section}, CleanFiles env l → Fits env l sched fuel → link env l sched fuel = some (.ok file) →
      gathered env l sched fuel = some (.ok w0) → w0.computeSections sched.toSched = .ok w → w.writeToDisk sched.toSched = .ok (file, secs) →
      ∃ log, GoodLink l.options (opsOf log) sched.toSched w0 w file secs := by
    intro env file w0 w secs hc hf h g1 g3 g5
    obtain ⟨log, loaded, v0, v, s, q1, q2, q3, q4⟩ := link_ok hv h
    rw [g1] at q1
    cases q1
    have := q3.compute
    rw [g3] at this
    cases this
    have := q3.write
    rw [g5] at this
    cases this
    have hf := hf _ _ _ _ g1 g3 q3.write
    have h4 := calls_spec hv q2 q3.hist hf.symstr
    exact ⟨log, ⟨⟨q3, h4.good hc, h4.namesClean hc, hf.names, hf.numbers⟩, hf.symstr, hf.dynstr, hf.syms, hf.dynsyms,
      hf.dynRels, hf.pltRels, h4.symsClean hc, h4.namedDyns hc⟩⟩
  obtain ⟨log, G⟩ := main hc hf h g1 g3 g5
  obtain ⟨log', G'⟩ := main hc' hf' h' g2 g4 g6
  have hr := G.run.reads G.good G.names G.fit
  have hr' := G'.run.reads G'.good G'.names G'.fit
  have hd := (G.toGoodRun.diff a2 g6).2.1
  have e : x.eh = w.eh ∧ x.programHeaders = w.programHeaders := by rw [a2.eq]; exact ⟨rfl, rfl⟩
  refine ⟨by rw [hr.ehdr, hr'.ehdr, e.1, e.2, show secs'.length = secs.length by simpa using congrArg List.length hd], by rw [hr.phdrs, hr'.phdrs, e.2], ?_, fun n => ?_⟩
  · rw [hr.shdrs, hr'.shdrs]
    have : ∀ l : List Section, l.map (·.sh.toSpec) = (l.map Section.blank).map (·.sh.toSpec) := by
      intro l
      rw [List.map_map]
      rfl
    rw [this secs', this secs, hd]
  · rw [← G.symsNamed_eq, ← G'.symsNamed_eq, a1.eq, a2.eq]
    rfl

/-- the files of `demoEnv` with other contents -/
def dataEnv : Env :=
  tableEnv [(mainPath, List.replicate 16 0xf4), (libPath, b!"library 2"), (arPath, b!"archive 2")]
    [(List.replicate 16 0xf4, mainElf), (b!"library 2", libElf), (List.replicate 8 0xcc, memberElf)]
    [(b!"archive 2", { index := [(b!"g", b!"g.o")], get := AMap.get? [(b!"g.o", List.replicate 8 0xcc)] })]

theorem data_shapes : SameShapes demoEnv dataEnv demoLinker where
  objects p hp := by
    cases List.mem_singleton.1 hp
    exact .inr ⟨_, _, rfl, rfl, rfl, rfl⟩
  libs p hp := by
    cases List.mem_singleton.1 hp
    exact .inr ⟨_, _, rfl, rfl, rfl⟩
  archives p hp := by
    cases List.mem_singleton.1 hp
    refine .inr ⟨_, _, rfl, rfl, .inr ⟨_, _, rfl, rfl, rfl, fun m => ?_⟩⟩
    by_cases hm : m = b!"g.o"
    · subst hm
      exact .inr ⟨_, _, rfl, rfl, rfl, rfl⟩
    · refine .inl ⟨?_, ?_⟩ <;> simp [AMap.get?, Ne.symm hm]

/-- both can be linked, and the files differ -/
example : ∃ f f', link demoEnv demoLinker LinkSched.id 5 = some (.ok f) ∧ link dataEnv demoLinker LinkSched.id 5 = some (.ok f') ∧ f'.length = f.length ∧ f'[8192]? ≠ f[8192]? ∧
    (∀ k, f'[k]? ≠ f[k]? → ∃ e ∈ shdrs f, e.offset ≤ k ∧ k < e.offset + e.fileSize) ∧ shdrs f' = shdrs f ∧ symbolsNamed f' b!"g" = symbolsNamed f b!"g" := by
  obtain ⟨_, _, _, _, f, _, h1, h2, _, hp⟩ := LinkRun.of_links LinkSched.id_valid demo_files (P := fun _ _ f _ => f[8192]? == some 0x90) (fuel := 5) (by decide +kernel)
  have hc' : CleanFiles dataEnv demoLinker := CleanFiles.of_table (by decide +kernel)
  obtain ⟨_, _, _, _, f', _, h1', h2', _, hp'⟩ := LinkRun.of_links LinkSched.id_valid hc' (P := fun _ _ f _ => f[8192]? == some 0xf4) (fuel := 5) (by decide +kernel)
  have ho : LinkSched.id.toSched.Oblivious := fun _ _ h => h
  obtain ⟨t1, t2, t3, t4⟩ := C151_tables LinkSched.id_valid ho data_shapes demo_files h2 hc' h2' h1 h1'
  rcases C151_layout LinkSched.id_valid ho data_shapes demo_files h2 h1 with h | ⟨g, hg, h3, h4⟩
  · rw [h1'] at h; cases h
  · rw [h1'] at hg
    cases hg
    refine ⟨f, f', h1, h1', h3, ?_, h4, t3, t4 _⟩
    rw [eq_of_beq hp, eq_of_beq hp']
    decide

/-- without the library and the archive both are refused, with the same message -/
example : link demoEnv { demoLinker with options := Options.default, archives := [] } LinkSched.id 5 = some (.error (.err Options.default.output (.undefined [b!"f", b!"g"]))) ∧
    link dataEnv { demoLinker with options := Options.default, archives := [] } LinkSched.id 5 = some (.error (.err Options.default.output (.undefined [b!"f", b!"g"]))) := by
  have h : link demoEnv { demoLinker with options := Options.default, archives := [] } LinkSched.id 5 = some (.error (.err Options.default.output (.undefined [b!"f", b!"g"]))) := by rfl
  refine ⟨h, ?_⟩
  have hE : SameShapes demoEnv dataEnv { demoLinker with options := Options.default, archives := [] } :=
    ⟨data_shapes.objects, (fun _ hp => nomatch hp), (fun _ hp => nomatch hp)⟩
  rcases C151_failure LinkSched.id_valid (fun _ _ h => h) hE (by simp) h with h | h
  · exact absurd h (by decide +kernel)
  · exact h

/-- an object file that reads a symbol through the global offset table with an instruction the linker rewrites -/
def viaElf : ElfFile where
  isObjectFile := true
  sectionHeaders := [{}, { demoSh SHT_PROGBITS 6 8 8 with sh_name := 1 }, { demoSh SHT_RELA 0 24 8 with sh_name := 7, sh_info := 1 }]
  secName := AMap.get? [(0, []), (1, b!".text"), (7, b!".rela.text")]
  syms := [{}, { demoSym STT_FUNC 1 0 8 with st_name := 1 }]
  symName := AMap.get? [(0, []), (1, b!"_start")]
  shdrRelocs := [(2, [⟨3, some (-4), 1, R_X86_64_REX_GOTPCRELX⟩])]
  dynsyms := []
  dynName := fun _ => none

/-- a world with this object file, with the given code -/
def viaEnv (code : Bytes) : Env := tableEnv [(mainPath, code)] [(code, viaElf)] []

/-- the crash: the linker knows the instruction of the first file, but not the one of the second -/
example : SameShapes (viaEnv [0x48, 0x8b, 0x05, 0, 0, 0, 0, 0xc3]) (viaEnv [0x4d, 0x8b, 0x05, 0, 0, 0, 0, 0xc3]) { options := Options.default, objects := [mainPath], archives := [] } ∧
    (match link (viaEnv [0x48, 0x8b, 0x05, 0, 0, 0, 0, 0xc3]) { options := Options.default, objects := [mainPath], archives := [] } LinkSched.id 5 with
      | some (.ok _) => True
      | _ => False) ∧
    link (viaEnv [0x4d, 0x8b, 0x05, 0, 0, 0, 0, 0xc3]) { options := Options.default, objects := [mainPath], archives := [] } LinkSched.id 5 = some (.error .panic) := by
  refine ⟨⟨fun p hp => ?_, (fun _ hp => nomatch hp), (fun _ hp => nomatch hp)⟩, ?_, ?_⟩
  · cases List.mem_singleton.1 hp
    exact .inr ⟨_, _, rfl, rfl, rfl, rfl⟩
  · have : (match link (viaEnv [0x48, 0x8b, 0x05, 0, 0, 0, 0, 0xc3]) { options := Options.default, objects := [mainPath], archives := [] } LinkSched.id 5 with
      | some (.ok _) => true
      | _ => false) = true := by decide +kernel
    split at this
    · trivial
    · cases this
  · have : (match link (viaEnv [0x4d, 0x8b, 0x05, 0, 0, 0, 0, 0xc3]) { options := Options.default, objects := [mainPath], archives := [] } LinkSched.id 5 with
      | some (.error .panic) => true
      | _ => false) = true := by decide +kernel
    split at this
    · next h => exact h
    · cases this

end Linker
end Dld
