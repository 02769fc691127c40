import Verif.Lemmas.Image
/-! # The contents of the sections the writer makes itself -/
namespace Dld
open Writer

variable {opts : Options} {ops : List Op} {sched : Sched} {w w' : Writer} {file : Bytes} {secs : List Section}

/-- own sections other than the null section and `.interp` have no chunks before `compute_sections` -/
theorem CleanInputs.no_chunks (hc : CleanInputs ops) (h : Hist opts ops w) {s : Section} (hs : s ∈ w.sections) (h1 : s.ptr < P.first)
    (h2 : s.ptr ≠ P.null) (h3 : s.ptr ≠ P.interp) : s.chunks = [] := by
  obtain ⟨w0, pn, h0, hI⟩ := h.winv
  obtain ⟨_, hd⟩ := hc.own hI h0 hs h1
  rcases hd with ⟨e', _⟩ | ⟨_, hd⟩
  · exact absurd e' h2
  · rw [if_neg h3] at hd
    exact List.map_eq_nil_iff.1 hd

/-- the contents an own section gets -/
def ownData (st : Stages sched w) (p : Nat) : List Bytes :=
  if p = P.sym then [st.final.symtab.chunk sched.symIter]
  else if p = P.dynsym then [st.final.dynsym.chunk sched.dynIter]
  else (st.growth p).add ++ tableData st.relocated st.tables p

theorem Run.own_datas (h : Run opts ops sched w w' file secs) (hc : CleanInputs ops) (st : Stages sched w) (hst : st.final = w')
    {t : Section} (ht : t ∈ secs) (h1 : t.ptr < P.first)
    (h2 : t.ptr ≠ P.null) (h3 : t.ptr ≠ P.interp) (h4 : t.ptr ≠ P.plt) (h5 : t.ptr ≠ P.gotPlt) :
    t.chunks.map (·.data) = ownData st t.ptr := by
  obtain ⟨i, hi, hi'⟩ := List.getElem_of_mem ht
  have ht : secs[i]? = some t := by rw [← hi']; exact List.getElem?_eq_getElem hi
  obtain ⟨s, hs, hf, hfin⟩ := h.finalized ht
  subst hst
  have hch := finalizeSec_chunks hfin
  have hsf := h.hist.secFacts
  obtain ⟨s0, a, p, q, u, r, htr⟩ := st.trip h.valid hsf h.hist.untouched hs
  have hptr : s0.ptr = t.ptr := by rw [hf.ptr, htr.ptr]
  rw [← hptr] at h1 h2 h3 h4 h5 ⊢
  have hnc := hc.no_chunks h.hist htr.mem0 h1 h2 h3
  have hd := htr.datas_eq h4 h5 (by rw [hnc]; simp)
  rw [hnc, List.map_nil, List.nil_append] at hd
  have hk0 := hsf.known s0 htr.mem0
  have hkind : s.kind = s0.kind := by
    have : s.kind = p.kind := congrArg (·.2.2.2.1) htr.post_s
    rw [this, htr.core.2.2.2.1]; exact congrArg (·.2.2.2.1) htr.bare
  unfold ownData
  have hor := hk0.own h1
  by_cases hsym : s0.ptr = P.sym
  · rw [if_pos hsym]
    have hk : s.kind = .symtab := by
      rw [hkind]
      rw [hsym] at hor
      exact congrArg (·.2.2.1) hor
    rw [hk] at hch
    rw [hch]
    rw [hsym] at hd
    have : (st.growth P.sym).add ++ tableData st.relocated st.tables P.sym = [st.scanned.symtab.chunk sched.symIter] := rfl
    rw [this] at hd
    cases hcs : s.chunks with
    | nil => rw [hcs] at hd; cases hd
    | cons c cs =>
      rw [hcs] at hd
      simp only [List.map_cons, List.cons.injEq, List.map_eq_nil_iff] at hd
      rw [hd.2]; rfl
  · rw [if_neg hsym]
    by_cases hdyn : s0.ptr = P.dynsym
    · rw [if_pos hdyn]
      have hk : s.kind = .dynsym := by
        rw [hkind]
        rw [hdyn] at hor
        exact congrArg (·.2.2.1) hor
      rw [hk] at hch
      rw [hch]
      rw [hdyn] at hd
      have : (st.growth P.dynsym).add ++ tableData st.relocated st.tables P.dynsym = [st.scanned.dynsym.chunk sched.dynIter] := rfl
      rw [this] at hd
      cases hcs : s.chunks with
      | nil => rw [hcs] at hd; cases hd
      | cons c cs =>
        rw [hcs] at hd
        simp only [List.map_cons, List.cons.injEq, List.map_eq_nil_iff] at hd
        rw [hd.2]; rfl
    · rw [if_neg hdyn]
      have : t.chunks = s.chunks := by
        rw [hch]
        cases hk : s.kind with
        | symtab => exact absurd (hk0.symtab_ptr (by rw [← hkind]; exact hk)) hsym
        | dynsym => exact absurd (hk0.dynsym_ptr (by rw [← hkind]; exact hk)) hdyn
        | _ => rfl
      rw [this]; exact hd

theorem contents_of_datas {t : Section} {l : List Bytes} (h : t.chunks.map (·.data) = l) : contents t = l.flatten := by
  unfold contents
  rw [← h, List.flatMap_def]

end Dld
