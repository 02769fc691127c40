import Verif.Lemmas.Progress3
/-! # The values of symbols are bounded -/
namespace Dld
open Writer Spec StringTable

variable {opts : Options} {ops : List Op} {sched : Sched} {w w' : Writer}

/-! ### Counting mentions through the stages -/

theorem map_of_maps {α β γ δ : Type} {F : α → β} {G : α → γ} {H : α → δ} {l m : List α} (h1 : l.map F = m.map F) (h2 : l.map G = m.map G)
    (h : ∀ a b, F a = F b → G a = G b → H a = H b) : l.map H = m.map H := by
  induction l generalizing m with
  | nil => cases m with
    | nil => rfl
    | cons b m => cases h1
  | cons a l ih => cases m with
    | nil => cases h1
    | cons b m =>
      simp only [List.map_cons, List.cons.injEq] at h1 h2 ⊢
      exact ⟨h a b h1.1 h2.1, ih h1.2 h2.2⟩

theorem notes_of_symbols {r : SymbolRef} {s t : Section} (hp : s.ptr = t.ptr) (h : s.chunks.map (·.symbols) = t.chunks.map (·.symbols)) : s.notes r = t.notes r := by
  have := congrArg (List.map fun l : List SymbolRef => (l.filter (· == r)).length) h
  simp only [List.map_map] at this
  unfold Section.notes
  rw [hp]
  split
  · rfl
  · exact congrArg List.sum this

theorem sum_zeros {α : Type} (l : List α) : (l.map fun _ => 0).sum = 0 := by
  induction l with
  | nil => rfl
  | cons a l ih => simpa using ih

theorem Writer.Early.placed_notes (st : Early sched w) (hv : sched.Valid) (h : Hist opts ops w) (r : SymbolRef) :
    notesCount r st.placed.sections = notesCount r w.sections := by
  have h1 := st.placed_core h.untouched (Section.notes r) (fun s t hst => by
    have := congrArg (List.map fun x : Bytes × List SymbolRef × List (Rela × SymbolRef) => x.2.1) hst.2.2.2.2.2
    simp only [List.map_map] at this
    exact notes_of_symbols hst.1 this)
  obtain ⟨h2, h3⟩ := sortSecs_perm hv st.hsort (F := Section.notes r) (fun _ _ => rfl)
  have h4 : (st.sorted.sections.map (Section.notes r)).Perm (st.dynamic.sections.map (Section.notes r)) := by
    rw [← List.take_append_drop 1 st.sorted.sections, ← List.take_append_drop 1 st.dynamic.sections, List.map_append, List.map_append, h2]
    exact h3.append_left _
  have h5 : st.dynamic.sections.map (Section.notes r) = st.scanned.sections.map (Section.notes r) := by
    rw [st.presort h.secFacts.known, List.map_map]
    apply List.map_congr_left
    intro s _
    simp [Section.notes, Growth.apply, noted, Function.comp_def, sum_zeros]
  have h6 : st.scanned.sections.map (Section.notes r) = w.sections.map (Section.notes r) :=
    map_of_map (scan_sections st.hscan).1 (fun b => if b.1 = P.null then 0 else (b.2.2.2.2.2.map fun c => (c.2.2.filter (· == r)).length).sum) (fun s => by
      simp only [bare, List.map_map]; rfl)
  unfold notesCount
  rw [h1, h4.sum_nat, h5, h6]

theorem notesIn_length (r : SymbolRef) (ix : Nat) (cs : List Chunk) (base : Nat) :
    (notesIn r ix base cs).length = (cs.map fun c => (noted r c).length).sum := by
  induction cs generalizing base with
  | nil => rfl
  | cons c cs ih =>
    rw [notesIn, List.length_append, ih, List.map_cons, List.sum_cons, List.length_map]
    rfl

theorem notesOf_length (r : SymbolRef) (l : List Section) (hl : ∀ s ∈ l, s.ptr ≠ P.null) : (notesOf r l).length = notesCount r l := by
  induction l with
  | nil => rfl
  | cons s l ih =>
    unfold notesOf notesCount at ih ⊢
    rw [List.flatMap_cons, List.length_append, ih fun s hs => hl s (by simp [hs]), List.map_cons, List.sum_cons, notesIn_length, Section.notes, if_neg (hl s (by simp))]

theorem notesCount_sublist (r : SymbolRef) {l m : List Section} (h : l.Sublist m) : notesCount r l ≤ notesCount r m := by
  induction h with
  | slnil => exact Nat.le_refl _
  | cons a _ ih => unfold notesCount at ih ⊢; rw [List.map_cons, List.sum_cons]; omega
  | cons_cons a _ ih => unfold notesCount at ih ⊢; rw [List.map_cons, List.sum_cons, List.map_cons, List.sum_cons]; omega

/-- the facts about the special symbols that matter later -/
structure MidFacts (st : Mid sched w) : Prop where
  moved : TMoved w.span st.dynrel.symtab st.special.symtab
  notes : ∀ (i : Nat) q u, st.patched.sections[i]? = some q → st.special.sections[i]? = some u → ∀ r, Section.notes r u ≤ Section.notes r q + bonus w.shstr q.sh.sh_name

theorem Writer.Early.mid (st : Early sched w) (hv : sched.Valid) (h : Hist opts ops w) (hf : FlagsOk ops) (hc : CleanInputs ops)
    (hn : NamesFit w) (hsl : SectionsNameless ops) (hl : w.dynsym.symbols.length < 2 ^ 32) (hsp : w.span < 2 ^ 29) : ∃ st' : Mid sched w, MidFacts st' := by
  obtain ⟨x, hx⟩ := st.patch hv h hf hc hl hsp
  obtain ⟨y, hy, h1, h2⟩ := st.special hv h hf hc hn hsl hl hx
  exact ⟨⟨st, x, y, hx, hy⟩, h1, h2⟩

theorem sum_le_of_at {α : Type} {f g : α → Nat} : ∀ {l m : List α}, l.length = m.length →
    (∀ (i : Nat) a b, l[i]? = some a → m[i]? = some b → f a ≤ g b) → (l.map f).sum ≤ (m.map g).sum := by
  intro l
  induction l with
  | nil => intro m _ _; simp
  | cons a l ih =>
    intro m hl h
    cases m with
    | nil => cases hl
    | cons b m =>
      have h1 := h 0 a b rfl rfl
      have h2 := ih (m := m) (by simpa using hl) fun i x y hx hy => h (i + 1) x y (by simpa using hx) (by simpa using hy)
      simp only [List.map_cons, List.sum_cons]
      omega

/-- how often a symbol is mentioned when its value is computed -/
theorem MidFacts.count {st : Mid sched w} (F : MidFacts st) (hv : sched.Valid) (h : Hist opts ops w) (hn : NamesFit w) (r : SymbolRef) :
    notesCount r st.special.sections ≤ (ops.filter (Op.attaches r)).length + 4 := by
  have hlen : st.special.sections.length = st.patched.sections.length := by simpa using congrArg List.length (special_body st.hspecial)
  have h1 : notesCount r st.special.sections ≤ (st.patched.sections.map fun q => Section.notes r q + bonus w.shstr q.sh.sh_name).sum :=
    sum_le_of_at hlen fun i u q hu hq => F.notes i q u hq hu r
  rw [sum_map_add] at h1
  have e1 : st.entries.sections = st.placed.sections := by rw [addDynEntries_rest st.hentries]; rfl
  have h2 : (st.patched.sections.map (Section.notes r)).sum = notesCount r st.placed.sections := by
    have h1 := patchPlt_noted r st.hpatch
    have h2 := (patchPlt_post st.hpatch).1
    rw [e1] at h1 h2
    refine congrArg List.sum (map_of_maps h2 h1 fun a b hab hn => ?_)
    have hp : a.ptr = b.ptr := congrArg (·.1) hab
    have := congrArg (fun l : List (List SymbolRef) => (l.map List.length).sum) hn
    simp only [List.map_map, Function.comp_def] at this
    simp only [Section.notes, hp, this]
  have h3 : (st.patched.sections.map fun q => bonus w.shstr q.sh.sh_name).sum ≤ 4 := by
    have e2 : st.patched.sections.map (·.sh.sh_name) = st.placed.sections.map (·.sh.sh_name) := by
      have := (patchPlt_post st.hpatch).1
      rw [e1] at this
      exact map_of_map this (·.2.2.2.2.sh_name) fun _ => rfl
    have := sum_bonus_le (shstr := w.shstr) (st.names_nodup hv h hn)
    rw [← e2, List.map_map] at this
    exact this
  have h4 := st.placed_notes hv h r
  have h5 := h.notes r
  omega

/-! ### Where symbols are mentioned -/

theorem Writer.ETrip.not_null {st : Early sched w} {i : Nat} {s0 a p : Section} (T : ETrip st i s0 a p) (h : Hist opts ops w) (hi : 0 < i) : s0.ptr ≠ P.null := by
  intro h1
  obtain ⟨w0, pn, h0, hI⟩ := h.winv
  obtain ⟨j, hj, _, hij⟩ := T.src
  obtain ⟨null, rest, e1, e2⟩ := h.secFacts.head
  have hnd := hI.ptrs_nodup h0
  rw [e1] at hj hnd
  cases j with
  | zero => have := hij.1 rfl; omega
  | succ j =>
    rw [List.map_cons, List.nodup_cons] at hnd
    simp only [List.getElem?_cons_succ] at hj
    exact hnd.1 (by rw [e2, ← h1]; exact List.mem_map.2 ⟨s0, List.mem_of_getElem? hj, rfl⟩)

/-- the chunks that mention a symbol are below the end of the image -/
theorem MidFacts.base {st : Mid sched w} (F : MidFacts st) (hv : sched.Valid) (h : Hist opts ops w) (hf : FlagsOk ops) (hc : CleanInputs ops) (hr : RefsOk ops)
    (hn : NamesFit w) (hl : w.dynsym.symbols.length < 2 ^ 32) {i : Nat} {u : Section} (hu : st.special.sections[i]? = some u) (hi : 0 < i) (r : SymbolRef) :
    ∀ n ∈ notesIn r (u16 u.index) u.sh.sh_addr u.chunks, n.1 ≤ w.span := by
  obtain ⟨s0, a, p, q, T⟩ := st.trip hv h.secFacts h.untouched hu
  obtain ⟨w0, pn, h0, hI⟩ := h.winv
  have hsh : u.sh = p.sh := (congrArg (·.2.2.2.2) T.named.1).trans (congrArg (·.2.2.2.2) T.patch.1)
  by_cases hp : P.first ≤ s0.ptr
  · have hqp : q = p := T.patch.2 (by rw [T.ptr_p]; intro e; rw [e] at hp; exact absurd hp (by decide))
      (by rw [T.ptr_p]; intro e; rw [e] at hp; exact absurd hp (by decide))
    obtain ⟨hc1, hc2, hc3⟩ := T.pushed hv h hf hp
    obtain ⟨_, hd, hw⟩ := h.pushed_chunks hc T.mem0 hp
    -- the data of the section
    have hlens : u.chunks.map (·.data.length) = s0.chunks.map (·.data.length) := by
      have h1 : u.chunks.map chunkBody = p.chunks.map chunkBody := by rw [T.named.2, hqp]
      have h2 : u.chunks.map (·.data.length) = p.chunks.map (·.data.length) := map_of_map h1 (·.2.1.length) fun _ => rfl
      rw [h2]
      apply List.ext_getElem?
      intro k
      rw [List.getElem?_map, List.getElem?_map]
      cases hk : s0.chunks[k]? with
      | none => rw [List.getElem?_eq_none_iff] at hk; rw [List.getElem?_eq_none (by omega)]
      | some c0 =>
        obtain ⟨c, hc, hcd, _⟩ := hc3 k c0 hk
        rw [hc, Option.map_some, Option.map_some, hcd]
    have haddr : u.sh.sh_addr + s0.sh.sh_size ≤ w.span := by
      rw [hsh]
      obtain ⟨a1, a2⟩ := st.addr hv h hf hl T.placed hi
      have hsz : p.sh.sh_size = s0.sh.sh_size := by rw [hc2]
      cases ha : p.alloc with
      | true => have := a1 ha; omega
      | false => rw [a2 ha]; unfold Writer.span; omega
    have key : ∀ (cs : List Chunk) (b : Nat), ∀ n ∈ notesIn r (u16 u.index) b cs, n.1 ≤ b + (cs.map (·.data.length)).sum := by
      intro cs
      induction cs with
      | nil => intro b n hn; cases hn
      | cons c cs ih =>
        intro b n hn
        rw [notesIn, List.mem_append] at hn
        rw [List.map_cons, List.sum_cons]
        rcases hn with hn | hn
        · obtain ⟨_, _, rfl⟩ := List.mem_map.1 hn
          simp only; omega
        · have := ih _ n hn
          omega
    intro n hm
    have := key _ _ n hm
    rw [hlens] at this
    omega
  · -- the writer's own sections mention nothing
    have hnil : notesIn r (u16 u.index) u.sh.sh_addr u.chunks = [] := by
      rw [← List.length_eq_zero_iff, notesIn_length]
      have h1 := F.notes i q u T.patched hu r
      have hb : bonus w.shstr q.sh.sh_name = 0 := by
        have hq : q.sh.sh_name = s0.sh.sh_name := by
          rw [show q.sh = p.sh from congrArg (·.2.2.2.2) T.patch.1]; exact T.toETrip.sh_name
        unfold bonus
        rw [hq, if_neg fun e => hp (h.array_pushed hn T.mem0 (.inl rfl) e), if_neg fun e => hp (h.array_pushed hn T.mem0 (.inr rfl) e)]
      have hq0 : Section.notes r q = Section.notes r s0 := by
        have e1 : st.entries.sections = st.placed.sections := by rw [addDynEntries_rest st.hentries]; rfl
        have h2 := patchPlt_noted r st.hpatch
        rw [e1] at h2
        obtain ⟨p', hp', e2⟩ := getElem?_of_map h2 T.patched
        rw [T.placed] at hp'
        cases hp'
        have e3 := congrArg (List.map fun x : Bytes × List SymbolRef × List (Rela × SymbolRef) => x.2.1) T.core.2.2.2.2.2
        have e4 := congrArg (List.map fun x : Option Nat × Bytes × List SymbolRef => x.2.2) (show a.chunks.map chunkCore = s0.chunks.map chunkCore from congrArg (·.2.2.2.2.2) T.bare)
        simp only [List.map_map] at e3 e4
        have e5 : Section.notes r q = Section.notes r p := by
          have := congrArg (fun l : List (List SymbolRef) => (l.map List.length).sum) e2
          simp only [List.map_map, Function.comp_def] at this
          simp only [Section.notes, T.ptr_q, T.ptr_p, this]
        rw [e5, notes_of_symbols (t := { (st.growth a.ptr).apply a with index := i }) (T.ptr_p.trans T.ptr_a.symm) e3]
        have e6 : Section.notes r { (st.growth a.ptr).apply a with index := i } = Section.notes r a := by
          simp [Section.notes, Growth.apply, noted, Function.comp_def, sum_zeros]
        rw [e6]
        exact notes_of_symbols T.ptr_a e4
      have h00 : Section.notes r s0 = 0 := by
        unfold Section.notes
        rw [if_neg (T.not_null h hi), List.sum_eq_zero_iff_forall_eq_nat]
        intro x hx
        obtain ⟨c, hcm, rfl⟩ := List.mem_map.1 hx
        obtain ⟨k, hk⟩ := List.getElem?_of_mem hcm
        have hsym := (h.cinv.chunk ⟨s0.ptr, k⟩ c (by rw [chunkAt_of_mem (hI.ptrs_nodup h0) T.mem0]; exact hk)).2.2
        unfold noted
        rw [hsym, List.length_eq_zero_iff, List.filter_eq_nil_iff]
        intro y hy e
        rw [beq_iff_eq] at e
        subst e
        have hy' : y ∈ notesAt ⟨s0.ptr, k⟩ ops := by
          unfold notedAt at hy
          rw [mem_foldl_insert] at hy
          rcases hy with hy | hy
          · cases hy
          · exact hy
        rcases h.noted_at hc hr hy' with ⟨h1, _⟩ | ⟨h1, _⟩
        · exact T.not_null h hi h1
        · exact hp h1
      have h2 : (u.chunks.map fun c => (Dld.noted r c).length).sum = Section.notes r u := by rw [Section.notes, if_neg (by rw [T.ptr_u]; exact T.not_null h hi)]
      omega
    rw [hnil]
    intro n hm
    cases hm

/-! ### The values -/

theorem placeSym_fold {r : SymbolRef} {B : Nat} : ∀ (l : List (Nat × Nat)) (s : Symbol), (∀ n ∈ l, n.1 ≤ B) →
    ∃ v ix, l.foldl (fun s n => placeSym r n.1 n.2 s) s = { s with sym := { s.sym with st_value := v, st_shndx := ix } } ∧ v ≤ s.sym.st_value + l.length * B := by
  intro l
  induction l with
  | nil => intro s _; exact ⟨s.sym.st_value, s.sym.st_shndx, rfl, by omega⟩
  | cons n l ih =>
    intro s hB
    obtain ⟨v, ix, h1, h2⟩ := ih (placeSym r n.1 n.2 s) fun n hn => hB n (by simp [hn])
    refine ⟨v, ix, ?_, ?_⟩
    · rw [List.foldl_cons, h1]; rfl
    · have h3 := hB n (by simp)
      have h4 : (placeSym r n.1 n.2 s).sym.st_value ≤ s.sym.st_value + B := by
        unfold placeSym
        cases r <;> simp only <;> omega
      rw [List.length_cons, Nat.succ_mul]
      omega

/-- the symbols as they are when relocations are applied -/
theorem MidFacts.value {st : Mid sched w} (F : MidFacts st) (hv : sched.Valid) (h : Hist opts ops w) (hf : FlagsOk ops) (hc : CleanInputs ops) (hr : RefsOk ops)
    (hn : NamesFit w) (hl : w.dynsym.symbols.length < 2 ^ 32) {V K : Nat} (hV : ∀ s sec n path r, Op.sym s sec n path r ∈ ops → s.st_value ≤ V)
    {r : SymbolRef} (hK : (ops.filter (Op.attaches r)).length ≤ K) (f : Section → Bool) {x0 : Symbol} (hx : st.dynrel.symtab.get r = some x0) :
    ∃ v ix, (((st.special.sections.drop 1).filter f).foldl (fun t s => s.patchSymbolValues t) st.special.symtab).get r =
      some { x0 with sym := { x0.sym with st_value := v, st_shndx := ix } } ∧ v ≤ V + (K + 5) * w.span := by
  obtain ⟨x1, hx1, v1, ix1, e1, hv1⟩ := (F.moved r).1 x0 hx
  have hx0 : x0.sym.st_value ≤ V := by
    obtain ⟨y, hy, e⟩ := SymbolTable.view_get_some st.dynrel_sym hx
    have := h.values hV hy
    rw [← congrArg Sym.st_value e] at this
    exact this
  have hl1 : (notesOf r ((st.special.sections.drop 1).filter f)).length ≤ K + 4 := by
    rw [notesOf_length _ _ (by
      intro s hs
      obtain ⟨i, hi⟩ := List.getElem?_of_mem (List.mem_filter.1 hs).1
      rw [List.getElem?_drop] at hi
      obtain ⟨s0, a, p, q, T⟩ := st.trip hv h.secFacts h.untouched hi
      rw [T.ptr_u]
      exact T.not_null h (by omega))]
    have h1 := notesCount_sublist r ((List.filter_sublist (p := f)).trans (List.drop_sublist 1 st.special.sections))
    have h2 := F.count hv h hn r
    omega
  obtain ⟨v, ix, e2, hv2⟩ := placeSym_fold (r := r) (B := w.span) (notesOf r ((st.special.sections.drop 1).filter f)) x1 (by
    intro n hm
    unfold notesOf at hm
    obtain ⟨u, hu, hm⟩ := List.mem_flatMap.1 hm
    obtain ⟨i, hi⟩ := List.getElem?_of_mem (List.mem_filter.1 hu).1
    rw [List.getElem?_drop] at hi
    exact F.base hv h hf hc hr hn hl hi (by omega) r n hm)
  refine ⟨v, ix, ?_, ?_⟩
  · rw [patchAll_get, hx1, Option.map_some, e2, e1]
  · have h3 : x1.sym.st_value ≤ V + w.span := by
      rw [e1]
      simp only
      rcases hv1 with h | h
      · rw [h]; omega
      · omega
    have h4 := Nat.mul_le_mul_right w.span hl1
    have h5 : (K + 5) * w.span = (K + 4) * w.span + w.span := Nat.succ_mul _ _
    omega

end Dld
