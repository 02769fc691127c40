import Verif.Lemmas.Bounds
import Verif.Lemmas.Listed
import Verif.Props.Errors
import Verif.Lemmas.Files
/-! # Lemmas: when a symbol is put into a section, the bounds of the arrays included -/
namespace Dld
open Writer Spec StringTable

/-- one of the chunks of the section notes the symbol -/
def Section.marks (r : SymbolRef) (s : Section) : Prop := ∃ c ∈ s.chunks, r ∈ c.symbols

theorem marks_modify {r x : SymbolRef} {s : Section} {i : Nat} (hi : i < s.chunks.length) :
    Section.marks r { s with chunks := s.chunks.modify i (·.addSymbol x) } ↔ s.marks r ∨ r = x := by
  have add : ∀ c : Chunk, r ∈ (c.addSymbol x).symbols ↔ r ∈ c.symbols ∨ r = x := by
    intro c
    unfold Chunk.addSymbol
    split
    · next h =>
      constructor
      · exact .inl
      · rintro (h' | rfl)
        · exact h'
        · exact h
    · simp
  unfold Section.marks
  show (∃ c ∈ s.chunks.modify i _, _) ↔ _
  constructor
  · rintro ⟨c, hc, hr⟩
    obtain ⟨j, hj⟩ := List.getElem?_of_mem hc
    rw [List.getElem?_modify] at hj
    obtain ⟨c0, h0, e⟩ := Option.map_eq_some_iff.1 hj
    by_cases hij : i = j
    · rw [if_pos hij] at e
      rw [← e] at hr
      rcases (add c0).1 hr with h | h
      · exact .inl ⟨c0, List.mem_of_getElem? h0, h⟩
      · exact .inr h
    · rw [if_neg hij] at e
      exact .inl ⟨c0, List.mem_of_getElem? h0, by rw [show c0 = c from e]; exact hr⟩
  · intro h
    rcases h with ⟨c, hc, hr⟩ | h
    · obtain ⟨j, hj⟩ := List.getElem?_of_mem hc
      refine ⟨if i = j then c.addSymbol x else c, List.mem_of_getElem? (i := j) ?_, ?_⟩
      · rw [List.getElem?_modify, hj]
        by_cases hij : i = j <;> simp [hij]
      · split
        · exact (add c).2 (.inl hr)
        · exact hr
    · refine ⟨(s.chunks[i]).addSymbol x, List.mem_of_getElem? (i := i) ?_, (add _).2 (.inr h)⟩
      rw [List.getElem?_modify, List.getElem?_eq_getElem hi]
      simp

namespace Writer

/-- the symbol has the name -/
def IsNamed (t : StringTable) (r : SymbolRef) (n : Name) : Prop := ∃ e, t.get n = some e ∧ r = .named (u32 e.offset)

theorem boundSymbols_marks {r : SymbolRef} {y : StringTable} {S E : Name} {t t' : SymbolTable} {s s' : Section}
    (h : boundSymbols y S E t s = .ok (t', s')) : s'.marks r ↔ s.marks r ∨ IsNamed y r S ∨ IsNamed y r E := by
  have tail : ∀ s1 : Section, (match y.get E with
        | some e => do
          let r := SymbolRef.named (u32 e.offset)
          let _ ← unwrap (t.get r)
          let t := t.modify r fun x => { x with sym := { x.sym with st_value := s1.sizeOnDisk } }
          let s ← if s1.chunks.length = 0 then .error .panic
            else s1.modifyChunk (s1.chunks.length - 1) (·.addSymbol r)
          .ok (t, s)
        | none => .ok (t, s1)) = (.ok (t', s') : M (SymbolTable × Section)) → (s'.marks r ↔ s1.marks r ∨ IsNamed y r E) := by
    intro s1 h2
    unfold IsNamed
    cases he : y.get E with
    | none => rw [he] at h2; cases h2; simp
    | some e =>
      rw [he] at h2
      simp only [bind_ok] at h2
      obtain ⟨_, _, h2⟩ := h2
      by_cases hz : s1.chunks.length = 0
      · simp only [if_pos hz] at h2; cases h2
      · simp only [if_neg hz] at h2
        rw [bind_ok] at h2
        obtain ⟨s2, h3, h4⟩ := h2
        cases h4
        obtain ⟨hi, rfl⟩ := modifyChunk_ok h3
        rw [marks_modify hi]
        simp
  unfold boundSymbols at h
  cases hs : y.get S with
  | none =>
    rw [hs] at h
    rw [tail s h]
    have : ¬ IsNamed y r S := by rintro ⟨e, he, _⟩; rw [hs] at he; cases he
    simp [this]
  | some e =>
    rw [hs] at h
    simp only [] at h
    rw [bind_ok] at h
    obtain ⟨s1, h1, h2⟩ := h
    obtain ⟨hi, rfl⟩ := modifyChunk_ok h1
    rw [tail _ h2, marks_modify hi]
    have : IsNamed y r S ↔ r = .named (u32 e.offset) := by
      constructor
      · rintro ⟨e', he, h⟩; rw [hs] at he; cases he; exact h
      · intro h; exact ⟨e, hs, h⟩
    rw [this, or_assoc]

/-- what `handle_special_symbols` notes in a section -/
theorem special_marks {w w' : Writer} (h : w.handleSpecialSymbols = .ok w') {i : Nat} {q u : Section} (hq : w.sections[i]? = some q) (hu : w'.sections[i]? = some u)
    (r : SymbolRef) :
    (q.marks r → u.marks r) ∧
    (u.marks r → q.marks r ∨ ∃ m S E, (m, S, E) ∈ arrayBounds ∧ w.shstr.shName m = some q.sh.sh_name ∧ (IsNamed w.symstr r S ∨ IsNamed w.symstr r E)) ∧
    ((∀ a, w.sec P.symstr = .ok a ∨ w.sec P.shstr = .ok a → a.sh.sh_name ≠ q.sh.sh_name) →
      ∀ m S E, (m, S, E) ∈ arrayBounds → (∀ m', w.shstr.shName m' = some q.sh.sh_name ↔ m' = m) → IsNamed w.symstr r S ∨ IsNamed w.symstr r E → u.marks r) := by
  simp only [handleSpecialSymbols, bind_ok, Prod.exists] at h
  obtain ⟨g, hg, a, ha, b, hb, t, secs, h1, c, _, h2⟩ := h
  cases h2
  obtain ⟨_, h3⟩ := mapAccumM_getElem h1
  obtain ⟨t1, t2, u', h4, h5⟩ := h3 i q hq
  rw [show secs[i]? = some u from hu] at h5
  cases h5
  unfold specialStep at h4
  split at h4
  · next hskip =>
    cases h4
    refine ⟨id, .inl, fun hs => ?_⟩
    simp only [List.mem_cons, List.not_mem_nil, or_false] at hskip
    rcases hskip with e | e
    · exact absurd e.symm (hs a (.inl ha))
    · exact absurd e.symm (hs b (.inr hb))
  · split at h4
    · next hn =>
      have hb := boundSymbols_marks (r := r) h4
      refine ⟨fun h => hb.2 (.inl h), fun h => (hb.1 h).imp_right fun h => ⟨_, _, _, by simp [arrayBounds], hn, h⟩, fun _ m S E hm hname h => ?_⟩
      have := (hname _).1 hn
      subst this
      simp only [arrayBounds, List.mem_cons, Prod.mk.injEq, List.not_mem_nil, or_false] at hm
      rcases hm with ⟨_, rfl, rfl⟩ | ⟨e, _⟩
      · exact hb.2 (.inr h)
      · exact absurd e (by decide)
    · next hn1 =>
      split at h4
      · next hn =>
        have hb := boundSymbols_marks (r := r) h4
        refine ⟨fun h => hb.2 (.inl h), fun h => (hb.1 h).imp_right fun h => ⟨_, _, _, by simp [arrayBounds], hn, h⟩, fun _ m S E hm hname h => ?_⟩
        have := (hname _).1 hn
        subst this
        simp only [arrayBounds, List.mem_cons, Prod.mk.injEq, List.not_mem_nil, or_false] at hm
        rcases hm with ⟨e, _⟩ | ⟨_, rfl, rfl⟩
        · exact absurd e (by decide)
        · exact hb.2 (.inr h)
      · next hn2 =>
        cases h4
        refine ⟨id, .inl, fun _ m S E hm hname h => ?_⟩
        simp only [arrayBounds, List.mem_cons, Prod.mk.injEq, List.not_mem_nil, or_false] at hm
        rcases hm with ⟨rfl, _⟩ | ⟨rfl, _⟩
        · exact absurd ((hname _).2 rfl) hn1
        · exact absurd ((hname _).2 rfl) hn2

theorem special_got_other {w w' : Writer} (h : w.handleSpecialSymbols = .ok w') {r : SymbolRef} (hgot : NotNamed w.symstr r b!"_GLOBAL_OFFSET_TABLE_") :
    (w'.symtab.get r).map (·.sym.st_shndx) = (w.symtab.get r).map (·.sym.st_shndx) := by
  simp only [handleSpecialSymbols, bind_ok, Prod.exists] at h
  obtain ⟨g, hg, a, _, b, _, t, secs, h1, c, _, h2⟩ := h
  cases h2
  have hv := mapAccumM_state (G := fun t : SymbolTable => t.view (·.sym.st_shndx)) (fun s a s' b h => by
      simp only [specialStep] at h
      split at h
      · cases h; rfl
      · split at h
        · exact boundSymbols_shndx h
        · split at h
          · exact boundSymbols_shndx h
          · cases h; rfl) h1
  refine (SymbolTable.view_get hv r).trans ?_
  cases hge : w.symstr.get b!"_GLOBAL_OFFSET_TABLE_" with
  | none => rfl
  | some e => simp only []; rw [SymbolTable.get_modify, if_neg (hgot e hge)]

theorem notesIn_ne {r : SymbolRef} {ix : Nat} {cs : List Chunk} (h : ∃ c ∈ cs, r ∈ c.symbols) (base : Nat) : notesIn r ix base cs ≠ [] := by
  obtain ⟨c, hmem, hr⟩ := h
  induction cs generalizing base with
  | nil => cases hmem
  | cons c' cs ih =>
    rw [notesIn]
    rcases List.mem_cons.1 hmem with rfl | h
    · intro e
      have := (List.append_eq_nil_iff.1 e).1
      rw [List.map_eq_nil_iff, List.filter_eq_nil_iff] at this
      exact this r hr (by simp)
    · intro e
      exact ih _ h (List.append_eq_nil_iff.1 e).2

variable {opts : Options} {ops : List Op} {sched : Sched} {w : Writer}

theorem placeAt_foldl_shndx (r : SymbolRef) (l : List (Nat × Nat)) (y : Sym) (hl : ∀ n ∈ l, n.2 ≠ 0) (h : l ≠ []) :
    (l.foldl (fun y n => placeAt r n.1 n.2 y) y).st_shndx ≠ 0 := by
  induction l generalizing y with
  | nil => exact absurd rfl h
  | cons n l ih =>
    rw [List.foldl_cons]
    by_cases he : l = []
    · subst he
      exact hl n (by simp)
    · exact ih _ (fun m hm => hl m (by simp [hm])) he

/-- a symbol that a section notes is defined at the end -/
theorem Stages.noted_defined (st : Stages sched w) (hv : sched.Valid) (hh : Hist opts ops w) (hn : NamesFit w)
    (hc : st.final.sections.length ≤ 65536) {r : SymbolRef} {i : Nat} {s0 a p q u v s : Section} (T : Trip st i s0 a p q u v s) (hi : 0 < i)
    (h1 : s0.ptr ≠ P.sym) (h2 : s0.ptr ≠ P.dynsym) (hin : u.marks r) {s' : Symbol} (hs' : st.final.symtab.get r = some s') : s'.sym.st_shndx ≠ 0 := by
  have hlt : ∀ (i : Nat) (u : Section), st.special.sections[i]? = some u → 0 < i → u16 u.index ≠ 0 := by
    intro i u hu hi
    obtain ⟨hx, z, hz⟩ := st.special_index hv hh hu
    have := (List.getElem?_eq_some_iff.1 hz).1
    rw [hx, u16, Nat.mod_eq_of_lt (by omega)]
    omega
  obtain ⟨g, pl, y, d, rest, _, _, hy, hd, e1, _⟩ := handleRelocations_ok st.hreloc
  rw [st.final_tables.1, e1, patchAll_get] at hs'
  obtain ⟨x, hx, rfl⟩ := Option.map_eq_some_iff.1 hs'
  rw [placeSym_foldl]
  refine placeAt_foldl_shndx _ _ _ ?_ ?_
  · intro n hn
    obtain ⟨u, hu, hn⟩ := List.mem_flatMap.1 hn
    rw [mem_notesIn hn]
    obtain ⟨i, hi⟩ := List.getElem?_of_mem (List.mem_filter.1 hu).1
    rw [List.getElem?_drop] at hi
    exact hlt (1 + i) u hi (by omega)
  · intro e
    refine notesIn_ne hin _ (List.flatMap_eq_nil_iff.1 e u (List.mem_filter.2 ⟨List.mem_of_getElem? (i := i - 1) ?_, ?_⟩))
    · rw [List.getElem?_drop, Nat.add_sub_cancel' hi]; exact T.special
    · rw [T.relocatable hv hh hn hy hd]
      simp [h1, h2]

/-- the way of a pushed section -/
theorem Stages.push_trip (st : Stages sched w) (hv : sched.Valid) (hh : Hist opts ops w) (hg : GoodInputs ops) {m : Name} {sh : SectionHeader} {d : Option Bytes}
    {sr : SectionRef} (hp : Op.push m sh d sr ∈ ops) (hm : m ≠ []) :
    ∃ i s0 a p q u v s, Trip st i s0 a p q u v s ∧ 0 < i ∧ s0.ptr = sr.ptr ∧ P.first ≤ s0.ptr := by
  obtain ⟨s1, hs1, hsp1, hf1, _⟩ := hh.pushed_section hp (hg.clean.foreign hp hm _)
  obtain ⟨_, _, hL⟩ := st.laid hv hh.secFacts hh.untouched hg.flags
  have hs1 : s1 ∈ w.sections.drop 1 := by
    obtain ⟨null, rest, e, hn⟩ := hh.secFacts.head
    rw [e] at hs1 ⊢
    rcases List.mem_cons.1 hs1 with rfl | h
    · rw [hn] at hf1; exact absurd hf1 (by decide)
    · exact h
  obtain ⟨t, ht, te⟩ := List.mem_map.1 (hL.tags.2.mem_iff.2 (List.mem_map_of_mem (f := tag) hs1))
  obtain ⟨i, hi⟩ := List.getElem?_of_mem ht
  rw [List.getElem?_drop] at hi
  obtain ⟨s0, a, p, q, u, v, T⟩ := st.trip hv hh.secFacts hh.untouched hi
  have e : s0.ptr = s1.ptr := by rw [← T.ptr]; exact congrArg (·.1) te
  exact ⟨1 + i, s0, a, p, q, u, v, t, T, by omega, e.trans hsp1, by rw [e]; exact hf1⟩

theorem Trip.patched_marks {st : Stages sched w} {i : Nat} {s0 a p q u v s : Section} (T : Trip st i s0 a p q u v s) (r : SymbolRef) : q.marks r ↔ s0.marks r := by
  have key : ∀ c : Chunk, r ∈ c.symbols ↔ Dld.noted r c ≠ [] := by
    intro c
    unfold Dld.noted
    constructor
    · intro h e
      rw [List.filter_eq_nil_iff] at e
      exact e r h (by simp)
    · intro h
      obtain ⟨x, hx⟩ := List.exists_mem_of_ne_nil _ h
      obtain ⟨h1, h2⟩ := List.mem_filter.1 hx
      rw [← (beq_iff_eq.1 h2)]; exact h1
  have all : ∀ cs : List Chunk, (∃ c ∈ cs, r ∈ c.symbols) ↔ ∃ x ∈ cs.map (Dld.noted r), x ≠ [] := by
    intro cs
    simp only [List.mem_map]
    constructor
    · rintro ⟨c, hc, hr⟩; exact ⟨_, ⟨c, hc, rfl⟩, (key c).1 hr⟩
    · rintro ⟨_, ⟨c, hc, rfl⟩, hr⟩; exact ⟨c, hc, (key c).2 hr⟩
  unfold Section.marks
  rw [all, all, T.noted_patched r]
  constructor
  · rintro ⟨x, hx, hne⟩
    rcases List.mem_append.1 hx with hx | hx
    · exact ⟨x, hx, hne⟩
    · obtain ⟨_, _, rfl⟩ := List.mem_map.1 hx
      exact absurd rfl hne
  · rintro ⟨x, hx, hne⟩
    exact ⟨x, List.mem_append_left _ hx, hne⟩

/-- the calls note the symbol in a named section -/
def MarkedIn (ops : List Op) (r : SymbolRef) (n : Name) : Prop :=
  (∃ m sh d sr, m ≠ [] ∧ Op.push m sh d sr ∈ ops ∧ r ∈ notesAt sr ops) ∨
  ∃ m S E sh d sr, (m, S, E) ∈ arrayBounds ∧ (n = S ∨ n = E) ∧ Op.push m sh d sr ∈ ops

/-- the name of a pushed section -/
theorem push_name (hh : Hist opts ops w) (hg : GoodInputs ops) (hn : NamesFit w) {m : Name} {sh : SectionHeader} {d : Option Bytes} {sr : SectionRef}
    (hp : Op.push m sh d sr ∈ ops) (hm : m ≠ []) {s0 : Section} (hs : s0 ∈ w.sections) (hptr : s0.ptr = sr.ptr) : Dld.nameOf w s0 = some m := by
  obtain ⟨w0, pn, h0, hI⟩ := hh.winv
  obtain ⟨_, i, h1, h2⟩ := hh.cinv.push m sh d sr hp
  rw [Holds.keys hI.names] at h1
  rw [List.getElem?_map, Option.map_eq_some_iff] at h2
  obtain ⟨s, hsi, hsp⟩ := h2
  cases eq_of_ptr (hI.ptrs_nodup h0) hs (List.mem_of_getElem? hsi) (hptr.trans hsp.symm)
  have hnm := congrArg (·[i]?) (hI.sec_names h0 hn)
  simp only [List.getElem?_map, hsi, Option.map_some] at hnm
  have hi : ¬ i < (tabNames opts.hashStyle).length := by
    intro hi
    rw [List.getElem?_append_left hi] at h1
    exact hg.clean.foreign hp hm _ (List.mem_of_getElem? h1)
  rw [List.getElem?_append_right (by omega)] at h1
  rw [List.getElem?_append_right (by rw [(base_length _).1]; omega), (base_length _).1, h1] at hnm
  unfold Dld.nameOf
  simpa using hnm

theorem arrayBounds_ne {m S E : Name} (h : (m, S, E) ∈ arrayBounds) : m ≠ [] ∧ ∀ hs, m ∉ tabNames hs := by
  simp only [arrayBounds, List.mem_cons, Prod.mk.injEq, List.not_mem_nil, or_false] at h
  rcases h with ⟨rfl, _⟩ | ⟨rfl, _⟩ <;> exact ⟨by decide, fun hs => by cases hs <;> decide⟩

/-- such a symbol is defined at the end -/
theorem Stages.marked_defined (st : Stages sched w) (hv : sched.Valid) (hh : Hist opts ops w) (hg : GoodInputs ops) (hn : NamesFit w)
    (hc : st.final.sections.length ≤ 65536) {r : SymbolRef} {n : Name} (hr : IsNamed w.symstr r n) (hmk : MarkedIn ops r n) {s' : Symbol}
    (hs' : st.final.symtab.get r = some s') : s'.sym.st_shndx ≠ 0 := by
  have hown : ∀ {p : Nat}, P.first ≤ p → p ≠ P.sym ∧ p ≠ P.dynsym := by
    intro p hp
    constructor <;> (rintro rfl; revert hp; decide)
  obtain ⟨w0, pn, h0, hI⟩ := hh.winv
  rcases hmk with ⟨m, sh, d, sr, hm, hp, hin⟩ | ⟨m, S, E, sh, d, sr, hm, hnm, hp⟩
  · obtain ⟨i, s0, a, p, q, u, v, s, T, hi, hptr, hf⟩ := st.push_trip hv hh hg hp hm
    refine st.noted_defined hv hh hn hc T hi (hown hf).1 (hown hf).2 ((special_marks st.hspecial T.patched T.special r).1 ((T.patched_marks r).2 ?_)) hs'
    cases hk : s0.chunks[sr.chunk]? with
    | none =>
      have h1 := (hh.cinv.absent ⟨s0.ptr, sr.chunk⟩ (by rw [chunkAt_of_mem (hI.ptrs_nodup h0) T.mem0]; exact hk)).2
      rw [hptr] at h1
      rw [← mem_notedAt, h1] at hin
      cases hin
    | some c0 =>
      refine ⟨c0, List.mem_of_getElem? hk, ?_⟩
      have h4 := (hh.cinv.chunk ⟨s0.ptr, sr.chunk⟩ c0 (by rw [chunkAt_of_mem (hI.ptrs_nodup h0) T.mem0]; exact hk)).2.2
      rw [h4, mem_notedAt, hptr]
      exact hin
  · obtain ⟨hm0, _⟩ := arrayBounds_ne hm
    obtain ⟨i, s0, a, p, q, u, v, s, T, hi, hptr, hf⟩ := st.push_trip hv hh hg hp hm0
    have hqn : ∀ {j : Nat} {s0 x p q u v s : Section}, Trip st j s0 x p q u v s → q.sh.sh_name = s0.sh.sh_name := by
      intro j s0 x p q u v s T
      rw [← T.sh_name]
      exact (congrArg (·.2.2.2.2.sh_name) T.named.1).symm
    obtain ⟨hN1, hN2⟩ := hI.named h0 hn T.mem0 (push_name hh hg hn hp hm0 T.mem0 hptr)
    have hshstr : st.patched.shstr = w.shstr := by
      rw [st.patched_tables.2.2.2.2.2.2.2.2.2.2, st.dynrel_rest.1]
    refine st.noted_defined hv hh hn hc T hi (hown hf).1 (hown hf).2 ((special_marks st.hspecial T.patched T.special r).2.2 ?_ m S E hm ?_ ?_) hs'
    · intro b hb he
      have hap : ∃ p, p < P.first ∧ b ∈ st.patched.sections ∧ b.ptr = p := by
        rcases hb with hb | hb
        · exact ⟨P.symstr, by decide, sec_ok hb⟩
        · exact ⟨P.shstr, by decide, sec_ok hb⟩
      obtain ⟨pp, hlt, ham, hpp⟩ := hap
      obtain ⟨j, hj⟩ := List.getElem?_of_mem ham
      obtain ⟨s', hs', _⟩ := getElem?_of_map st.posts.2.2.1 hj
      obtain ⟨s0', x', p', q2, u2, v', T'⟩ := st.trip hv hh.secFacts hh.untouched hs'
      have := T'.patched
      rw [hj] at this
      cases this
      rw [hqn T, hqn T'] at he
      have := hN2 _ T'.mem0 he
      rw [T'.ptr_q, this] at hpp
      omega
    · rw [hshstr, hqn T]; exact hN1
    · rw [st.patched_symstr]
      rcases hnm with rfl | rfl
      · exact .inl hr
      · exact .inr hr

/-- any other symbol that is undefined before stays so -/
theorem Stages.unmarked_undefined (st : Stages sched w) (hv : sched.Valid) (hh : Hist opts ops w) (hg : GoodInputs ops)
    (hl : w.symstr.totalLen < 2 ^ 32) {ns nd : List Name} (T : TableFacts ns nd ops w) {n : Name} (hns : n ∈ ns) (hgot : n ≠ b!"_GLOBAL_OFFSET_TABLE_")
    (hmk : ¬ MarkedIn ops (.named (u32 (nameOff ns n))) n) {s : Symbol} (hs : w.symtab.get (.named (u32 (nameOff ns n))) = some s)
    (hu : isUnresolved s = true) : ∃ s', st.final.symtab.get (.named (u32 (nameOff ns n))) = some s' ∧ isUnresolved s' = true := by
  generalize hr : SymbolRef.named (u32 (nameOff ns n)) = r at *
  have hinj : ∀ m, IsNamed w.symstr r m → m = n := by
    rintro m ⟨e, he, h⟩
    obtain ⟨h1, h2⟩ := Holds.get_some T.symstr he
    rw [h2, ← hr] at h
    exact (u32_nameOff_inj T.symstr hl hns h1 (SymbolRef.named.inj h)).symm
  have hng : NotNamed w.symstr r b!"_GLOBAL_OFFSET_TABLE_" := fun e he h => hgot (hinj _ ⟨e, he, h.symm⟩).symm
  obtain ⟨w0, pn, h0, hI⟩ := hh.winv
  have hshstr : st.patched.shstr = w.shstr := by
    rw [st.patched_tables.2.2.2.2.2.2.2.2.2.2, st.dynrel_rest.1]
  have hfree : ∀ i u, st.special.sections[i]? = some u → 0 < i → ∀ c ∈ u.chunks, r ∉ c.symbols := by
    intro i u hi hpos c hcm hcr
    obtain ⟨s1, hs1, _⟩ := getElem?_of_map st.posts.2.2.2.1 hi
    obtain ⟨s0, a, p, q, u', v, T1⟩ := st.trip hv hh.secFacts hh.untouched hs1
    have := T1.special
    rw [hi] at this
    cases this
    have hqn : q.sh.sh_name = s0.sh.sh_name := by
      rw [← T1.sh_name]
      exact (congrArg (·.2.2.2.2.sh_name) T1.named.1).symm
    rcases (special_marks st.hspecial T1.patched hi r).2.1 ⟨c, hcm, hcr⟩ with h | ⟨m, S, E, hm, hsn, hSE⟩
    · obtain ⟨c0, hc0, hr0⟩ := (T1.patched_marks r).1 h
      obtain ⟨k, hk⟩ := List.getElem?_of_mem hc0
      have h4 := (hh.cinv.chunk ⟨s0.ptr, k⟩ c0 (by rw [chunkAt_of_mem (hI.ptrs_nodup h0) T1.mem0]; exact hk)).2.2
      rw [h4, mem_notedAt] at hr0
      rcases hh.noted_at hg.clean hg.refs hr0 with ⟨h5, _⟩ | ⟨_, m, sh, d, hm, hp⟩
      · exact T1.toMTrip.toETrip.null hh hpos h5
      · exact hmk (.inl ⟨m, sh, d, _, hm, hp, hr0⟩)
    · rw [st.patched_symstr] at hSE
      rw [hshstr, hqn, Holds.shName_iff hI.names] at hsn
      have hpn : m ∈ pn := (List.mem_append.1 hsn.1).resolve_left ((arrayBounds_ne hm).2 _)
      obtain ⟨j, hj⟩ := List.getElem?_of_mem hpn
      have hjl := (List.getElem?_eq_some_iff.1 hj).1
      have hlen := hI.len
      rw [List.length_append] at hlen
      obtain ⟨n', p', ps, g1, g2, _⟩ := hI.pushed j _ (List.getElem?_eq_getElem (by omega))
      rw [hj] at g1
      cases g1
      obtain ⟨sr, hsr⟩ := mem_pushesOf (n := m) (ops := ops) (p := p') (by rw [g2]; simp)
      refine hmk (.inr ⟨m, S, E, _, _, sr, hm, ?_, hsr⟩)
      rcases hSE with h | h
      · exact .inl (hinj _ h).symm
      · exact .inr (hinj _ h).symm
  obtain ⟨g, pl, y, d, rest, _, _, hy, hd, e1, _⟩ := handleRelocations_ok st.hreloc
  have h2 : (st.patched.symtab.get r).map (·.sym) = (w.symtab.get r).map (·.sym) := SymbolTable.view_get st.patched_sym r
  rw [hs] at h2
  obtain ⟨s2, hs2, e2⟩ := Option.map_eq_some_iff.1 h2
  have h3 := special_got_other st.hspecial (r := r) (by rw [st.patched_symstr]; exact hng)
  rw [hs2] at h3
  obtain ⟨s3, hs3, e3⟩ := Option.map_eq_some_iff.1 h3
  have hnil : notesOf r ((st.special.sections.drop 1).filter (relocatable [y.sh.sh_name, d.sh.sh_name])) = [] := by
    unfold notesOf
    rw [List.flatMap_eq_nil_iff]
    intro u hu
    obtain ⟨j, hj⟩ := List.getElem?_of_mem (List.mem_filter.1 hu).1
    rw [List.getElem?_drop] at hj
    exact notesIn_nil (hfree _ u hj (by omega)) _
  have hfin : st.final.symtab.get r = some s3 := by
    rw [st.final_tables.1, e1, patchAll_get, hnil, hs3]
    rfl
  refine ⟨s3, hfin, ?_⟩
  obtain ⟨s4, _, hs4, _, _, _, _, _, _, _, _, hdy, _, hi⟩ := st.final_slots hv hh hfin
  have hw : s4.dynamic = s.dynamic ∧ s4.sym = s.sym := by
    obtain ⟨s0, h1, h2⟩ := SymbolTable.view_get_some (scan_view (F := fun s : Symbol => (s.sym, s.dynamic)) (fun _ _ _ _ => ⟨rfl, rfl⟩) st.hscan) hs4
    rw [hs] at h1; cases h1
    exact ⟨congrArg (·.2) h2, congrArg (·.1) h2⟩
  have e4 : s3.sym.st_shndx = s.sym.st_shndx := by
    have e2 : s2.sym = s.sym := e2
    rw [← e2]; exact e3
  unfold isUnresolved Symbol.isGlobal Symbol.isWeak at hu ⊢
  rw [hdy, hw.1, hi, hw.2, e4]
  exact hu

end Writer
end Dld
