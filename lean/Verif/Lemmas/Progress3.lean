import Verif.Lemmas.Notes
import Verif.Lemmas.Bounds
/-! # Setting the special symbols succeeds -/
namespace Dld
open Writer Spec StringTable

variable {opts : Options} {ops : List Op} {sched : Sched} {w w' : Writer}

/-! ### The names of placed sections -/

theorem Writer.ETrip.sh_name {st : Early sched w} {i : Nat} {s0 a p : Section} (h : ETrip st i s0 a p) : p.sh.sh_name = s0.sh.sh_name := by
  have h2 : a.sh = s0.sh := congrArg (·.2.2.2.2.1) h.bare
  have h3 := congrArg (·.sh_name) h.core.2.2.2.2.1
  rw [← h2]
  exact h3.trans rfl

/-- the section name offsets of the writer's sections are distinct -/
theorem Hist.sh_name_inj (h : Hist opts ops w) (hn : NamesFit w) {s t : Section} (hs : s ∈ w.sections) (ht : t ∈ w.sections)
    (e : t.sh.sh_name = s.sh.sh_name) : t = s := by
  obtain ⟨w0, pn, h0, hI⟩ := h.winv
  rcases hI.name_ptr h0 hn hs with ⟨_, hm⟩ | ⟨_, _, _, hm⟩ <;> exact (hI.named h0 hn hs hm).2 t ht e

theorem Writer.Early.names_nodup (st : Early sched w) (hv : sched.Valid) (h : Hist opts ops w) (hn : NamesFit w) :
    (st.placed.sections.map (·.sh.sh_name)).Nodup := by
  have h1 := st.placed_nodup hv h.secFacts h.untouched
  unfold List.Nodup at h1 ⊢
  rw [List.pairwise_map] at h1 ⊢
  refine h1.imp_of_mem fun {p q} hp hq hne e => hne ?_
  obtain ⟨i, hi⟩ := List.getElem?_of_mem hp
  obtain ⟨j, hj⟩ := List.getElem?_of_mem hq
  obtain ⟨s0, a, T⟩ := st.trip hv h.secFacts h.untouched hi
  obtain ⟨t0, b, U⟩ := st.trip hv h.secFacts h.untouched hj
  have := h.sh_name_inj hn T.mem0 U.mem0 (by rw [← T.sh_name, ← U.sh_name, e])
  rw [T.ptr_p, U.ptr_p, this]

/-- a section with the name of an array was pushed -/
theorem Hist.array_pushed (h : Hist opts ops w) (hn : NamesFit w) {s : Section} (hs : s ∈ w.sections) {m : Name}
    (hm : m = b!".init_array" ∨ m = b!".fini_array") (e : w.shstr.shName m = some s.sh.sh_name) : P.first ≤ s.ptr := by
  obtain ⟨w0, pn, h0, hI⟩ := h.winv
  rcases hI.name_ptr h0 hn hs with ⟨h1, h2⟩ | ⟨h1, _⟩
  · have h3 := ((hI.named h0 hn hs h2).1 m).1 e
    have h4 : ∀ p < P.first, ptrName p ≠ b!".init_array" ∧ ptrName p ≠ b!".fini_array" := by decide
    rcases hm with rfl | rfl
    · exact absurd h3.symm (h4 _ h1).1
    · exact absurd h3.symm (h4 _ h1).2
  · exact h1

/-! ### The loop -/

/-- the mentions `handle_special_symbols` may add to a section -/
def bonus (shstr : StringTable) (n : Nat) : Nat :=
  if shstr.shName b!".init_array" = some n then 2 else if shstr.shName b!".fini_array" = some n then 2 else 0

theorem sum_bonus_le {shstr : StringTable} {l : List Nat} (h : l.Nodup) : (l.map (bonus shstr)).sum ≤ 4 := by
  have h1 : ∀ (o : Option Nat) (l : List Nat), l.Nodup → (l.map fun n => if o = some n then 2 else 0).sum ≤ 2 := by
    intro o l hl
    induction l with
    | nil => simp
    | cons a l ih =>
      rw [List.nodup_cons] at hl
      rw [List.map_cons, List.sum_cons]
      by_cases ha : o = some a
      · have : (l.map fun n => if o = some n then 2 else 0).sum = 0 := by
          rw [List.sum_eq_zero_iff_forall_eq_nat]
          intro x hx
          obtain ⟨n, hn, rfl⟩ := List.mem_map.1 hx
          rw [if_neg]
          rw [ha]
          rintro e
          cases e
          exact hl.1 hn
        rw [if_pos ha, this]
        exact Nat.le_refl _
      · rw [if_neg ha]
        have := ih hl.2
        omega
  have h2 := h1 (shstr.shName b!".init_array") l h
  have h3 := h1 (shstr.shName b!".fini_array") l h
  have h4 : (l.map (bonus shstr)).sum ≤ (l.map fun n => if shstr.shName b!".init_array" = some n then 2 else 0).sum +
      (l.map fun n => if shstr.shName b!".fini_array" = some n then 2 else 0).sum := by
    clear h h2 h3
    induction l with
    | nil => simp
    | cons a l ih =>
      simp only [List.map_cons, List.sum_cons]
      unfold bonus at ih ⊢
      split <;> split <;> omega
  omega

theorem specialStep_progress {shstr symstr : StringTable} {skip : List Nat} {t : SymbolTable} {s : Section} {B : Nat}
    (hs : ∀ m, m = b!".init_array" ∨ m = b!".fini_array" → shstr.shName m = some s.sh.sh_name → 0 < s.chunks.length ∧ s.sizeOnDisk ≤ B)
    (ht : ∀ m, m = b!"__init_array_end" ∨ m = b!"__fini_array_end" → ∀ e, symstr.get m = some e → (t.get (.named (u32 e.offset))).isSome) :
    ∃ t' s', specialStep shstr symstr skip t s = .ok (t', s') ∧ TMoved B t t' ∧ ∀ r, Section.notes r s' ≤ Section.notes r s + bonus shstr s.sh.sh_name := by
  unfold specialStep bonus
  split
  · exact ⟨t, s, rfl, .refl B t, fun r => by omega⟩
  · split
    · next h =>
      obtain ⟨h1, h2⟩ := hs _ (.inl rfl) h
      exact boundSymbols_progress h1 (ht _ (.inl rfl)) h2
    · split
      · next h =>
        obtain ⟨h1, h2⟩ := hs _ (.inr rfl) h
        exact boundSymbols_progress h1 (ht _ (.inr rfl)) h2
      · exact ⟨t, s, rfl, .refl B t, fun r => by omega⟩

theorem specialLoop_progress {shstr symstr : StringTable} {skip : List Nat} {B : Nat} {l : List Section} :
    ∀ {t : SymbolTable}, (∀ s ∈ l, ∀ m, m = b!".init_array" ∨ m = b!".fini_array" → shstr.shName m = some s.sh.sh_name → 0 < s.chunks.length ∧ s.sizeOnDisk ≤ B) →
    (∀ m, m = b!"__init_array_end" ∨ m = b!"__fini_array_end" → ∀ e, symstr.get m = some e → (t.get (.named (u32 e.offset))).isSome) →
    ∃ t' l', mapAccumM (specialStep shstr symstr skip) t l = .ok (t', l') ∧ TMoved B t t' ∧ l'.length = l.length ∧
      ∀ (i : Nat) s s', l[i]? = some s → l'[i]? = some s' → ∀ r, Section.notes r s' ≤ Section.notes r s + bonus shstr s.sh.sh_name := by
  induction l with
  | nil => intro t _ _; exact ⟨t, [], rfl, .refl B t, rfl, fun i s s' h => by simp at h⟩
  | cons a l ih =>
    intro t hs ht
    obtain ⟨t1, a', h1, h2, h3⟩ := specialStep_progress (skip := skip) (hs a (by simp)) ht
    obtain ⟨t2, l', h4, h5, h6, h7⟩ := ih (t := t1) (fun s hm => hs s (by simp [hm])) fun m hm e he => h2.isSome (ht m hm e he)
    refine ⟨t2, a' :: l', (mapAccumM_cons ..).2 ⟨t1, a', t2, l', h1, h4, rfl⟩, h2.trans h5, by simp [h6], ?_⟩
    intro i s s' hi hi' r
    cases i with
    | zero => simp at hi hi'; subst hi; subst hi'; exact h3 r
    | succ i => exact h7 i s s' (by simpa using hi) (by simpa using hi') r

/-! ### The writer -/

/-- a section after patching the PLT -/
theorem Writer.Early.patched_at (st : Early sched w) {x : Writer} (hx : st.entries.patchPlt sched = .ok x) {i : Nat} {q : Section}
    (hq : x.sections[i]? = some q) :
    ∃ p, st.placed.sections[i]? = some p ∧ post q = post p ∧ (p.ptr ≠ P.plt → p.ptr ≠ P.gotPlt → q = p) := by
  have e1 : st.entries.sections = st.placed.sections := by rw [addDynEntries_rest st.hentries]; rfl
  obtain ⟨sp, sg, pc, gc, pd, gd, _, _, _, _, _, _, hpat⟩ := patchPlt_ok hx
  rw [hpat] at hq
  simp only [modSec, List.getElem?_map, e1, Option.map_map, Option.map_eq_some_iff] at hq
  obtain ⟨p, hp, rfl⟩ := hq
  refine ⟨p, hp, ?_, ?_⟩
  · simp only [Function.comp]
    split <;> split <;> rfl
  · intro n1 n2
    simp only [Function.comp]
    rw [if_neg n1, if_neg n2]

theorem sec_exists {w : Writer} {p : Nat} (h : p ∈ w.sections.map (·.ptr)) : ∃ s ∈ w.sections, s.ptr = p ∧ w.sec p = .ok s := by
  obtain ⟨s, hs, e⟩ := List.mem_map.1 h
  cases hf : w.sections.find? (fun s => s.ptr == p) with
  | none =>
    rw [List.find?_eq_none] at hf
    exact absurd (beq_iff_eq.2 e) (hf s hs)
  | some t =>
    refine ⟨t, List.mem_of_find?_eq_some hf, by simpa using List.find?_some hf, ?_⟩
    unfold sec unwrap
    rw [hf]

/-- the bounds of the arrays that are mentioned are symbols of the table -/
theorem Hist.bound_sym (h : Hist opts ops w) (hsl : SectionsNameless ops) {m : Name} (hm : m ≠ []) {e : Entry} (he : w.symstr.get m = some e) :
    (w.symtab.get (.named (u32 e.offset))).isSome := by
  obtain ⟨ns, nd, T⟩ := h.tableFacts
  obtain ⟨h1, h2⟩ := Dld.Holds.get_some T.symstr he
  rcases (T.symNames m).1 h1 with h3 | h3
  · exact absurd h3 hm
  · obtain ⟨s, sec, path, r, h4⟩ := mem_symNames_iff.1 h3
    obtain ⟨h5, h6⟩ := T.inv.sref _ _ _ _ _ h4
    have := h6 fun hst => hm (hsl _ _ _ _ _ h4 hst)
    rw [h2, ← this]
    exact h5

/-! ### Pushed sections after placing -/

theorem Writer.ETrip.pushed {st : Early sched w} {i : Nat} {s0 a p : Section} (T : ETrip st i s0 a p) (hv : sched.Valid) (h : Hist opts ops w)
    (hf : FlagsOk ops) (hp0 : P.first ≤ s0.ptr) :
    p.chunks.length = s0.chunks.length ∧ p.sh = { s0.sh with sh_addr := p.sh.sh_addr, sh_offset := p.sh.sh_offset } ∧
    ∀ k c0, s0.chunks[k]? = some c0 → ∃ c, p.chunks[k]? = some c ∧ c.data = c0.data ∧ c.symbols = c0.symbols ∧
      c.relocations = c0.relocations.map (Spec.scannedReloc w.symtab) ∧
      c.address = if p.alloc then some (p.sh.sh_addr + ((s0.chunks.take k).map (·.data.length)).sum) else none := by
  have hi0 : 0 < i := st.pos hv h T.placed (by rw [T.ptr_p]; intro e; rw [e] at hp0; exact absurd hp0 (by decide))
  have hgr := st.growth_pushed (p := a.ptr) (by rw [T.ptr_a]; exact hp0)
  have hcore := T.core
  rw [hgr] at hcore
  have ea : a.chunks = s0.chunks.map fun c => { c with relocations := c.relocations.map (Spec.scannedReloc w.symtab) } := by
    obtain ⟨j, hj, hja, _⟩ := T.src
    rw [scan_only_redirects_calls h st.hscan, List.getElem?_map, hj] at hja
    cases hja; rfl
  have hsp : p.chunks.map (fun c => (c.data, c.symbols, c.relocations)) = a.chunks.map (fun c => (c.data, c.symbols, c.relocations)) := by
    rw [hcore.2.2.2.2.2]
    simp [Growth.apply]
  have hpl0 : p.chunks.length = s0.chunks.length := by
    have := congrArg List.length hsp
    simpa [ea] using this
  have hsh : p.sh = { s0.sh with sh_addr := p.sh.sh_addr, sh_offset := p.sh.sh_offset } := by
    have h3 := hcore.2.2.2.2.1
    have h2 : a.sh = s0.sh := congrArg (·.2.2.2.2.1) T.bare
    rw [← h2]
    exact h3.trans rfl
  refine ⟨hpl0, hsh, fun k c0 hk => ?_⟩
  have hk' : k < s0.chunks.length := (List.getElem?_eq_some_iff.1 hk).1
  obtain ⟨cp, hcp⟩ : ∃ cp, p.chunks[k]? = some cp := ⟨p.chunks[k]'(by omega), List.getElem?_eq_getElem _⟩
  obtain ⟨ca, hca, eca⟩ := getElem?_of_map hsp hcp
  rw [ea, List.getElem?_map, hk] at hca
  cases hca
  simp only [Prod.mk.injEq] at eca
  refine ⟨cp, hcp, eca.1, eca.2.1, eca.2.2, ?_⟩
  obtain ⟨k1, k2⟩ := T.addrs hv h hf hi0
  cases hpa : p.alloc with
  | false => exact k2 hpa cp (List.mem_of_getElem? hcp)
  | true =>
    have k3 := k1 hpa
    unfold ChunksPlaced at k3
    rw [k3] at hcp
    rw [setChunkAddrs_getElem hcp]
    have hl : p.chunks.map (·.data.length) = s0.chunks.map (·.data.length) := by
      have := congrArg (List.map fun x : Bytes × List SymbolRef × List (Rela × SymbolRef) => x.1.length) hsp
      simpa [Function.comp_def, ea] using this
    rw [List.map_take, hl, ← List.map_take]
    rfl

theorem Writer.Early.dynrel_sym (st : Early sched w) : st.dynrel.symtab.view (·.sym) = w.symtab.view (·.sym) := by
  rw [(genDynRels_view (F := fun s : Symbol => s.sym) (G := fun _ : Symbol => ()) (fun _ _ => rfl) (fun _ _ _ => rfl) st.hdynrel).1]
  exact (congrArg _ st.filled_tables.1).trans (scan_view sym_blind st.hscan)

theorem Writer.Early.dynrel_symstr (st : Early sched w) : st.dynrel.symstr = w.symstr := by
  rw [genDynRels_rest st.hdynrel]
  exact st.filled_tables.2.2.2.2.2.2.2.2.1

/-- `handle_special_symbols` succeeds -/
theorem Writer.Early.special (st : Early sched w) (hv : sched.Valid) (h : Hist opts ops w) (hf : FlagsOk ops) (hc : CleanInputs ops)
    (hn : NamesFit w) (hsl : SectionsNameless ops) (hl : w.dynsym.symbols.length < 2 ^ 32) {x : Writer} (hx : st.entries.patchPlt sched = .ok x) :
    ∃ y, x.handleSpecialSymbols = .ok y ∧ TMoved w.span st.dynrel.symtab y.symtab ∧
      ∀ (i : Nat) q u, x.sections[i]? = some q → y.sections[i]? = some u → ∀ r, Section.notes r u ≤ Section.notes r q + bonus w.shstr q.sh.sh_name := by
  have hx2 := (patchPlt_post hx).2
  have hx1 := (patchPlt_post hx).1
  have e1 : st.entries.sections = st.placed.sections := by rw [addDynEntries_rest st.hentries]; rfl
  rw [e1] at hx1
  have xs : x.symtab = st.dynrel.symtab := by rw [hx2, st.entries_rest]
  have xn : x.symstr = w.symstr := by rw [hx2, st.entries_rest]; exact st.dynrel_symstr
  have xh : x.shstr = w.shstr := by rw [hx2, st.entries_rest]; exact st.dynrel_rest.1
  have hptrs : x.sections.map (·.ptr) = st.placed.sections.map (·.ptr) := map_of_map hx1 (·.1) fun _ => rfl
  have has : ∀ p, p ∈ (baseIdents opts.hashStyle).map (·.1) → p ∈ x.sections.map (·.ptr) := by
    intro p hp
    obtain ⟨s, hs, e⟩ := st.has hv h hp
    rw [hptrs]
    exact List.mem_map.2 ⟨s, hs, e⟩
  obtain ⟨g, hg, hgp, hgs⟩ := sec_exists (has P.gotPlt (by cases opts.hashStyle <;> decide))
  obtain ⟨a, _, _, has1⟩ := sec_exists (has P.symstr (by cases opts.hashStyle <;> decide))
  obtain ⟨b, _, _, hbs⟩ := sec_exists (has P.shstr (by cases opts.hashStyle <;> decide))
  -- the table before the loop
  have hg1 : g.sh.sh_addr ≤ w.span := by
    obtain ⟨i, hi⟩ := List.getElem?_of_mem hg
    obtain ⟨p, hp, hpp, _⟩ := st.patched_at hx hi
    have : g.sh = p.sh := congrArg (·.2.2.2.2) hpp
    rw [this]
    exact st.addr_le hv h hf hl hp (st.pos hv h hp (by rw [← show g.ptr = p.ptr from congrArg (·.1) hpp, hgp]; decide))
  have ht0 : ∃ t0, (match x.symstr.get b!"_GLOBAL_OFFSET_TABLE_" with
      | some e => x.symtab.modify (.named (u32 e.offset)) fun s => { s with sym := { s.sym with st_shndx := u16 g.index, st_value := g.sh.sh_addr } }
      | none => x.symtab) = t0 ∧ TMoved w.span st.dynrel.symtab t0 := by
    refine ⟨_, rfl, ?_⟩
    rw [xs]
    split
    · exact TMoved.modify fun s => ⟨_, _, rfl, .inr hg1⟩
    · exact .refl _ _
  obtain ⟨t0, e0, m0⟩ := ht0
  obtain ⟨t1, secs, h1, m1, hlen, hno⟩ := specialLoop_progress (shstr := x.shstr) (symstr := x.symstr) (skip := [a.sh.sh_name, b.sh.sh_name]) (B := w.span)
    (l := x.sections) (t := t0) (by
      intro q hq m hm hmn
      obtain ⟨i, hi⟩ := List.getElem?_of_mem hq
      obtain ⟨p, hp, hpp, heq⟩ := st.patched_at hx hi
      obtain ⟨s0, a, T⟩ := st.trip hv h.secFacts h.untouched hp
      have hsh : q.sh = p.sh := congrArg (·.2.2.2.2) hpp
      have hfirst : P.first ≤ s0.ptr := h.array_pushed hn T.mem0 hm (by rw [← T.sh_name, ← hsh, ← xh]; exact hmn)
      have hqp : q = p := heq (by rw [T.ptr_p]; intro e; rw [e] at hfirst; exact absurd hfirst (by decide))
        (by rw [T.ptr_p]; intro e; rw [e] at hfirst; exact absurd hfirst (by decide))
      subst hqp
      obtain ⟨hc1, hc2, hc3⟩ := h.pushed_chunks hc T.mem0 hfirst
      obtain ⟨hc4, hc5, _⟩ := T.pushed hv h hf hfirst
      refine ⟨by rw [hc4]; exact List.length_pos_iff.2 hc1, ?_⟩
      unfold Section.sizeOnDisk Writer.span
      have : q.sh.sh_size = s0.sh.sh_size := by rw [hc5]
      split <;> omega) (by
      intro m hm e he
      rw [xn] at he
      refine m0.isSome ?_
      have := h.bound_sym hsl (by rcases hm with rfl | rfl <;> decide) he
      obtain ⟨z, hz⟩ := Option.isSome_iff_exists.1 this
      obtain ⟨z', hz', _⟩ := SymbolTable.view_get_some st.dynrel_sym.symm hz
      rw [hz']; rfl)
  have hpost : secs.map post = x.sections.map post := mapAccumM_map_eq (F := post) (G := post) (fun _ _ _ _ hs => (specialStep_post hs).1) h1
  have hptrs2 : secs.map (·.ptr) = x.sections.map (·.ptr) := map_of_map hpost (·.1) fun _ => rfl
  obtain ⟨cr, _, _, hcr⟩ := sec_exists (w := { x with symtab := t1, sections := secs }) (p := P.copyRel)
    (by show _ ∈ secs.map _; rw [hptrs2]; exact has _ (by cases opts.hashStyle <;> decide))
  refine ⟨{ x with symtab := t1, sections := secs, dynsym := x.dynsym.updateObjectSymbols cr.sh.sh_addr cr.index }, ?_, m0.trans m1, ?_⟩
  · simp only [handleSpecialSymbols, bind_ok, Prod.exists]
    exact ⟨g, hgs, a, has1, b, hbs, t1, secs, by subst e0; exact h1, cr, hcr, rfl⟩
  · intro i q u hq hu r
    rw [← xh]
    exact hno i q u hq hu r

end Dld
