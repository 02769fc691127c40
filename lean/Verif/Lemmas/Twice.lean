import Verif.Props.Values
/-! # Symbols that are noted in several input sections -/
namespace Dld
open Writer Spec SymbolTable
variable {opts : Options} {ops : List Op} {sched : Sched} {w w' : Writer} {file : Bytes} {secs : List Section}

/-- where the section of a push is before the relocations are applied, and the chunk that notes a symbol -/
structure NotedIn (st : Stages sched w) (file : Bytes) (secs : List Section) (r : SymbolRef) (m : Name) (a : List Op) (sr : SectionRef) (i : Nat) (t u : Section) : Prop where
  pos : 0 < i
  out : secs[i]? = some t
  ptr : u.ptr = sr.ptr
  named : sectionsNamed file m = [t.sh.toSpec]
  special : st.special.sections[i]? = some u
  addr : u.sh.sh_addr = t.sh.sh_addr
  start : ((u.chunks.take sr.chunk).map (·.data.length)).sum = startOf m a
  chunk : ∃ c, u.chunks[sr.chunk]? = some c ∧ c.symbols.filter (· == r) = [r]

theorem GoodRun.notedIn (G : GoodRun opts ops sched w w' file secs) (st : Stages sched w) (hst : st.final = w') {r : SymbolRef} (ho : Ordinary w.symstr r)
    {a b : List Op} {m : Name} {sh : SectionHeader} {d : Option Bytes} {sr : SectionRef} (e : ops = a ++ Op.push m sh d sr :: b) (hm : m ≠ [])
    (hin : r ∈ notesAt sr ops) : ∃ i t u, NotedIn st file secs r m a sr i t u := by
  have hp : Op.push m sh d sr ∈ ops := by rw [e]; simp
  obtain ⟨t, ht, htp, hsn⟩ := G.push_section hp
  obtain ⟨i, hi⟩ := List.getElem?_of_mem ht
  obtain ⟨s, hs, hfin, hfz⟩ := G.run.finalized hi
  subst hst
  obtain ⟨s0, x, p, q, u, v, T⟩ := st.trip G.run.valid G.run.hist.secFacts G.run.hist.untouched hs
  have hup : u.ptr = sr.ptr := by rw [T.ptr_u, ← T.ptr, ← hfin.ptr, htp]
  obtain ⟨s1, _, hsp1, hf1, _⟩ := G.run.hist.pushed_section hp (G.good.clean.foreign hp hm _)
  have hpos : 0 < i := by
    rcases Nat.eq_zero_or_pos i with h0 | h0
    · obtain ⟨j, hj, _, hji⟩ := T.src
      rw [hji.2 h0] at hj
      obtain ⟨null, rest, e, en⟩ := G.run.hist.secFacts.head
      rw [e] at hj
      cases hj
      rw [hsp1, ← hup, T.ptr_u, en] at hf1
      exact absurd hf1 (by decide)
    · exact h0
  have hm1 := G.run.mentions G.good.clean G.good.refs st ho.toUnbound T hpos
  obtain ⟨c, c0, hc, hc0, hone⟩ := hm1.2 sr.chunk (by rw [hup, ← hsp1]; exact hf1) (by rw [hup]; exact hin)
  have haddr : u.sh.sh_addr = t.sh.sh_addr := by
    have h1 : u.sh = p.sh := (congrArg (·.2.2.2.2) T.named.1).trans (congrArg (·.2.2.2.2) T.patch.1)
    rw [h1, hfin.sh, T.sh_p]
  have hlen : ((u.chunks.take sr.chunk).map (·.data.length)).sum = startOf m a := by
    rw [← G.run.hist.push_start G.good.clean e hm T.mem0 (by rw [← T.ptr_u, hup])]
    have hq : q = p := T.patch.2 (by rw [T.ptr_p, ← T.ptr_u, hup, ← hsp1]; intro e; rw [e] at hf1; revert hf1; decide)
      (by rw [T.ptr_p, ← T.ptr_u, hup, ← hsp1]; intro e; rw [e] at hf1; revert hf1; decide)
    have h1 : u.chunks.map (·.data.length) = p.chunks.map (·.data.length) := by
      have := congrArg (List.map fun x : Option Nat × Bytes × List (Rela × SymbolRef) => x.2.1.length) T.named.2
      rw [hq] at this
      simpa [Function.comp_def, chunkBody] using this
    have h2 : p.chunks.map (·.data.length) = x.chunks.map (·.data.length) := by
      have := congrArg (List.map fun x : Bytes × List SymbolRef × List (Rela × SymbolRef) => x.1.length) T.core.2.2.2.2.2
      rw [st.growth_pushed (p := x.ptr) (by rw [T.ptr_a, ← T.ptr_u, hup, ← hsp1]; exact hf1)] at this
      simpa [Function.comp_def, Growth.apply] using this
    have h3 : x.chunks.map (·.data.length) = s0.chunks.map (·.data.length) := by
      have := congrArg (List.map fun x : Option Nat × Bytes × List SymbolRef => x.2.1.length) (congrArg (·.2.2.2.2.2) T.bare)
      simpa [Function.comp_def, chunkCore, bare] using this
    rw [List.map_take, h1, h2, h3, List.map_take]
  exact ⟨i, t, u, hpos, hi, hup, hsn, T.special, haddr, hlen, c, hc, hone⟩

/-- the sum of the addresses that are added to a symbol -/
def noteSum (l : List (Nat × Nat)) : Nat := (l.map (·.1)).sum

theorem noteSum_append (a b : List (Nat × Nat)) : noteSum (a ++ b) = noteSum a + noteSum b := by simp [noteSum]

theorem placeAt_sum (k : Nat) (l : List (Nat × Nat)) (y : Sym) :
    (l.foldl (fun y n => placeAt (.named k) n.1 n.2 y) y).st_value = y.st_value + noteSum l := by
  induction l generalizing y with
  | nil => rfl
  | cons n l ih =>
    rw [List.foldl_cons, ih]
    simp only [placeAt, noteSum, List.map_cons, List.sum_cons]
    omega

theorem notesIn_ge {r : SymbolRef} {ix : Nat} {cs : List Chunk} {k : Nat} {c : Chunk} (hk : cs[k]? = some c) (hr : c.symbols.filter (· == r) = [r]) (base : Nat) :
    base + ((cs.take k).map (·.data.length)).sum ≤ noteSum (notesIn r ix base cs) := by
  induction cs generalizing base k with
  | nil => cases hk
  | cons c' cs ih =>
    rw [notesIn, noteSum_append]
    cases k with
    | zero =>
      simp only [List.getElem?_cons_zero, Option.some.injEq] at hk
      subst hk
      rw [hr]
      simp [noteSum]
    | succ k =>
      have := ih (k := k) hk (base + c'.data.length)
      simp only [List.take_succ_cons, List.map_cons, List.sum_cons]
      omega

theorem notesIn_ge2 {r : SymbolRef} {ix : Nat} {cs : List Chunk} {k k' : Nat} {c c' : Chunk} (hlt : k < k') (hk : cs[k]? = some c)
    (hr : c.symbols.filter (· == r) = [r]) (hk' : cs[k']? = some c') (hr' : c'.symbols.filter (· == r) = [r]) (base : Nat) :
    (base + ((cs.take k).map (·.data.length)).sum) + (base + ((cs.take k').map (·.data.length)).sum) ≤ noteSum (notesIn r ix base cs) := by
  induction cs generalizing base k k' with
  | nil => cases hk
  | cons d cs ih =>
    rw [notesIn, noteSum_append]
    cases k' with
    | zero => omega
    | succ k' =>
      simp only [List.getElem?_cons_succ] at hk'
      cases k with
      | zero =>
        simp only [List.getElem?_cons_zero, Option.some.injEq] at hk
        subst hk
        have := notesIn_ge (ix := ix) hk' hr' (base + d.data.length)
        rw [hr]
        simp only [List.take_succ_cons, List.map_cons, List.sum_cons, List.take_zero, List.map_nil, List.sum_nil, noteSum, List.map_cons, List.map_nil] at this ⊢
        omega
      | succ k =>
        have := ih (k := k) (k' := k') (by omega) hk hk' (base + d.data.length)
        simp only [List.take_succ_cons, List.map_cons, List.sum_cons]
        omega

theorem flatMap_ge {f : Section → List (Nat × Nat)} {l : List Section} {i : Nat} {u : Section} (h : l[i]? = some u) : noteSum (f u) ≤ noteSum (l.flatMap f) := by
  obtain ⟨a, b, rfl⟩ := List.append_of_mem (List.mem_of_getElem? h)
  rw [List.flatMap_append, List.flatMap_cons, noteSum_append, noteSum_append]
  omega

theorem flatMap_ge2 {f : Section → List (Nat × Nat)} {l : List Section} {i j : Nat} {u v : Section} (hlt : i < j) (h : l[i]? = some u) (h' : l[j]? = some v) :
    noteSum (f u) + noteSum (f v) ≤ noteSum (l.flatMap f) := by
  have e : l = l.take (i + 1) ++ l.drop (i + 1) := (List.take_append_drop _ _).symm
  have h1 : (l.take (i + 1))[i]? = some u := by rw [List.getElem?_take, if_pos (by omega)]; exact h
  have h2 : (l.drop (i + 1))[j - (i + 1)]? = some v := by rw [List.getElem?_drop, Nat.add_sub_cancel' (by omega)]; exact h'
  have h3 := flatMap_ge (f := f) h1
  have h4 := flatMap_ge (f := f) h2
  rw [e, List.flatMap_append, noteSum_append]
  omega

/-- **A symbol noted in two input sections gets the addresses of both.** -/
theorem GoodRun.placed_twice (G : GoodRun opts ops sched w w' file secs) {k : Nat} (ho : Ordinary w.symstr (.named k)) {a b a' b' : List Op}
    {m m' : Name} {sh sh' : SectionHeader} {d d' : Option Bytes} {sr sr' : SectionRef} (e : ops = a ++ Op.push m sh d sr :: b) (hm : m ≠ [])
    (hin : .named k ∈ notesAt sr ops) (e' : ops = a' ++ Op.push m' sh' d' sr' :: b') (hm' : m' ≠ []) (hin' : .named k ∈ notesAt sr' ops) (hne : sr ≠ sr') :
    ∃ o o', sectionsNamed file m = [o] ∧ sectionsNamed file m' = [o'] ∧ ∀ x, w.symtab.get (.named k) = some x →
      ∃ y, w'.symtab.get (.named k) = some y ∧ (o.addr + startOf m a) + (o'.addr + startOf m' a') + x.sym.st_value ≤ y.sym.st_value := by
  obtain ⟨st, hst⟩ := G.run.stages
  obtain ⟨i, t, u, N⟩ := G.notedIn st hst ho e hm hin
  obtain ⟨i', t', u', N'⟩ := G.notedIn st hst ho e' hm' hin'
  refine ⟨_, _, N.named, N'.named, fun x hx => ?_⟩
  have hs := G.run.symbol st hst (G.run.unmentioned G.good.clean G.good.refs st ho.toUnbound) G.names
  have hsec : st.special.symtab.get (.named k) = st.patched.symtab.get (.named k) := special_other (by rw [st.patched_symstr]; exact ho) st.hspecial
  have hsym := SymbolTable.view_get st.patched_sym (.named k)
  rw [hx] at hsym
  obtain ⟨z, hz, hzx⟩ := Option.map_eq_some_iff.1 hsym
  rw [hsec, hz, Option.map_some] at hs
  obtain ⟨y, hy, hys⟩ := Option.map_eq_some_iff.1 hs
  have hzv : z.sym.st_value = x.sym.st_value := by
    first | exact congrArg Sym.st_value hzx | exact congrArg (fun q : Symbol => q.sym.st_value) hzx
  refine ⟨y, hy, ?_⟩
  rw [hys, placeAt_sum, hzv, Nat.add_comm _ x.sym.st_value]
  refine Nat.add_le_add_left ?_ _
  obtain ⟨c, hc, hr⟩ := N.chunk
  obtain ⟨c', hc', hr'⟩ := N'.chunk
  have g := notesIn_ge (ix := u16 u.index) hc hr u.sh.sh_addr
  have g' := notesIn_ge (ix := u16 u'.index) hc' hr' u'.sh.sh_addr
  rw [N.start, N.addr] at g
  rw [N'.start, N'.addr] at g'
  have hi : (st.special.sections.drop 1)[i - 1]? = some u := by rw [List.getElem?_drop, Nat.add_sub_cancel' N.pos]; exact N.special
  have hi' : (st.special.sections.drop 1)[i' - 1]? = some u' := by rw [List.getElem?_drop, Nat.add_sub_cancel' N'.pos]; exact N'.special
  have p := N.pos
  have p' := N'.pos
  show t.sh.sh_addr + startOf m a + (t'.sh.sh_addr + startOf m' a') ≤ _
  unfold notesOf
  rcases Nat.lt_trichotomy i i' with h | h | h
  · have := flatMap_ge2 (f := fun s => notesIn (.named k) (u16 s.index) s.sh.sh_addr s.chunks) (by omega) hi hi'
    rw [N.addr, N'.addr] at this
    omega
  · subst h
    rw [hi] at hi'
    cases hi'
    have h1 := N.out
    rw [N'.out] at h1
    cases h1
    have hcne : sr.chunk ≠ sr'.chunk := by
      intro hc
      apply hne
      have := N.ptr.symm.trans N'.ptr
      cases sr; cases sr'
      simp_all
    have hge := flatMap_ge (f := fun s => notesIn (.named k) (u16 s.index) s.sh.sh_addr s.chunks) hi
    refine Nat.le_trans ?_ hge
    rcases Nat.lt_or_gt_of_ne hcne with h | h
    · have := notesIn_ge2 (ix := u16 u.index) h hc hr hc' hr' u.sh.sh_addr
      rw [N.start, N'.start, N.addr] at this
      simp only [N.addr]
      exact this
    · have := notesIn_ge2 (ix := u16 u.index) h hc' hr' hc hr u.sh.sh_addr
      rw [N.start, N'.start, N.addr] at this
      simp only [N.addr]
      omega
  · have := flatMap_ge2 (f := fun s => notesIn (.named k) (u16 s.index) s.sh.sh_addr s.chunks) (by omega) hi' hi
    rw [N.addr, N'.addr] at this
    omega

end Dld
