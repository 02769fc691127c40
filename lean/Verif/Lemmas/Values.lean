import Verif.Lemmas.Pushes
/-! # The values of symbols after `handle_relocations` -/
namespace Dld
open Writer Spec

/-! ### `patch_symbol_values` for one symbol -/

/-- the update of one symbol by one chunk -/
def placeSym (r : SymbolRef) (base ix : Nat) (s : Symbol) : Symbol :=
  { s with sym := { s.sym with
      st_shndx := ix
      st_value := match r with
        | .section _ _ => base
        | .named _ => s.sym.st_value + base } }

/-- the chunks that mention a symbol: address and section index -/
def notesIn (r : SymbolRef) (ix : Nat) : Nat → List Chunk → List (Nat × Nat)
  | _, [] => []
  | base, c :: cs => (c.symbols.filter (· == r)).map (fun _ => (base, ix)) ++ notesIn r ix (base + c.data.length) cs

theorem patchSymbols_get (base ix : Nat) (r : SymbolRef) (l : List SymbolRef) (t : SymbolTable) :
    (Section.patchSymbols base ix t l).get r = (t.get r).map fun s =>
      ((l.filter (· == r)).map fun _ => (base, ix)).foldl (fun s n => placeSym r n.1 n.2 s) s := by
  unfold Section.patchSymbols
  induction l generalizing t with
  | nil => simp
  | cons y l ih =>
    rw [List.foldl_cons, ih, SymbolTable.get_modify]
    by_cases h : y = r
    · subst h
      simp only [if_true, Option.map_map, beq_self_eq_true, List.filter_cons_of_pos, List.map_cons, List.foldl_cons]
      rfl
    · simp [h]

theorem patchChunks_get (r : SymbolRef) (ix : Nat) (cs : List Chunk) (base : Nat) (t : SymbolTable) :
    (Section.patchChunks ix base t cs).get r = (t.get r).map fun s =>
      (notesIn r ix base cs).foldl (fun s n => placeSym r n.1 n.2 s) s := by
  induction cs generalizing base t with
  | nil => simp [Section.patchChunks, notesIn]
  | cons c cs ih =>
    rw [Section.patchChunks, ih, patchSymbols_get, Option.map_map]
    simp only [notesIn, List.foldl_append]
    rfl

/-- the chunks of a list of sections that mention a symbol -/
def notesOf (r : SymbolRef) (l : List Section) : List (Nat × Nat) := l.flatMap fun s => notesIn r (u16 s.index) s.sh.sh_addr s.chunks

theorem patchAll_get (r : SymbolRef) (l : List Section) (t : SymbolTable) :
    (l.foldl (fun t s => s.patchSymbolValues t) t).get r = (t.get r).map fun s =>
      (notesOf r l).foldl (fun s n => placeSym r n.1 n.2 s) s := by
  induction l generalizing t with
  | nil => simp [notesOf]
  | cons a l ih =>
    rw [List.foldl_cons, ih, Section.patchSymbolValues, patchChunks_get, Option.map_map]
    simp only [notesOf, List.flatMap_cons, List.foldl_append]
    rfl

theorem notesIn_nil {r : SymbolRef} {ix : Nat} {cs : List Chunk} (h : ∀ c ∈ cs, r ∉ c.symbols) (base : Nat) : notesIn r ix base cs = [] := by
  induction cs generalizing base with
  | nil => rfl
  | cons c cs ih =>
    rw [notesIn, ih (fun c hc => h c (by simp [hc])), List.append_nil]
    have := h c (by simp)
    simp only [List.map_eq_nil_iff, List.filter_eq_nil_iff, beq_iff_eq]
    intro y hy e
    subst e
    exact this hy

theorem filter_beq_nodup {l : List SymbolRef} (hn : l.Nodup) {r : SymbolRef} (hr : r ∈ l) : l.filter (· == r) = [r] := by
  induction l with
  | nil => cases hr
  | cons y l ih =>
    rw [List.nodup_cons] at hn
    by_cases h : y = r
    · subst h
      rw [List.filter_cons_of_pos (by simp)]
      congr 1
      rw [List.filter_eq_nil_iff]
      intro z hz e
      simp only [beq_iff_eq] at e
      subst e
      exact hn.1 hz
    · rw [List.filter_cons_of_neg (by simpa using h)]
      exact ih hn.2 (by simpa [Ne.symm h] using hr)

theorem notesIn_one {r : SymbolRef} {ix : Nat} {cs : List Chunk} : ∀ {k : Nat} {c : Chunk} {base : Nat}, cs[k]? = some c →
    c.symbols.filter (· == r) = [r] → (∀ j d, cs[j]? = some d → j ≠ k → r ∉ d.symbols) →
    notesIn r ix base cs = [(base + ((cs.take k).map (·.data.length)).sum, ix)] := by
  induction cs with
  | nil => intro k c base h; simp at h
  | cons d cs ih =>
    intro k c base hk hc ho
    cases k with
    | zero =>
      simp only [List.getElem?_cons_zero, Option.some.injEq] at hk
      subst hk
      rw [notesIn, notesIn_nil, hc]
      · simp
      · intro e he
        obtain ⟨j, hj⟩ := List.getElem?_of_mem he
        exact ho (j + 1) e (by simpa using hj) (by omega)
    | succ k =>
      have h0 := ho 0 d (by simp) (by omega)
      rw [notesIn, ih (by simpa using hk) hc fun j e hj hne => ho (j + 1) e (by simpa using hj) (by omega)]
      have : d.symbols.filter (· == r) = [] := by
        rw [List.filter_eq_nil_iff]
        intro y hy e
        simp only [beq_iff_eq] at e
        subst e
        exact h0 hy
      rw [this]
      simp only [List.map_nil, List.nil_append, List.take_succ_cons, List.map_cons, List.sum_cons]
      congr 2
      omega

theorem flatMap_at {α β : Type} {f : α → List β} {l : List α} : ∀ {i : Nat} {x : α}, l[i]? = some x →
    (∀ j y, l[j]? = some y → j ≠ i → f y = []) → l.flatMap f = f x := by
  induction l with
  | nil => intro i x h; simp at h
  | cons a l ih =>
    intro i x hi h0
    rw [List.flatMap_cons]
    cases i with
    | zero =>
      simp only [List.getElem?_cons_zero, Option.some.injEq] at hi
      subst hi
      rw [List.flatMap_eq_nil_iff.2, List.append_nil]
      intro y hy
      obtain ⟨j, hj⟩ := List.getElem?_of_mem hy
      exact h0 (j + 1) y (by simpa using hj) (by omega)
    | succ i =>
      rw [h0 0 a (by simp) (by omega), List.nil_append]
      exact ih (by simpa using hi) fun j y hj hne => h0 (j + 1) y (by simpa using hj) (by omega)

/-- skipping sections that do not mention a symbol -/
theorem notesOf_filter {r : SymbolRef} {p : Section → Bool} {l : List Section}
    (h : ∀ s ∈ l, p s = false → ∀ c ∈ s.chunks, r ∉ c.symbols) : notesOf r (l.filter p) = notesOf r l := by
  induction l with
  | nil => rfl
  | cons a l ih =>
    have ih := ih fun s hs => h s (by simp [hs])
    unfold notesOf at ih ⊢
    rw [List.flatMap_cons]
    cases ha : p a with
    | true => rw [List.filter_cons_of_pos ha, List.flatMap_cons, ih]
    | false =>
      rw [List.filter_cons_of_neg (by simp [ha]), ih, notesIn_nil (h a (by simp) ha)]
      rfl

/-! ### The special symbols -/

/-- the mentions of a symbol in a chunk -/
def noted (r : SymbolRef) (c : Chunk) : List SymbolRef := c.symbols.filter (· == r)

theorem noted_addSymbol {r r' : SymbolRef} (h : r' ≠ r) (c : Chunk) : noted r (c.addSymbol r') = noted r c := by
  unfold noted Chunk.addSymbol
  split
  · rfl
  · simp [h]

theorem noted_modify {r r' : SymbolRef} (h : r' ≠ r) (cs : List Chunk) (i : Nat) :
    (cs.modify i (·.addSymbol r')).map (noted r) = cs.map (noted r) := by
  apply List.ext_getElem?
  intro j
  simp only [List.getElem?_map, List.getElem?_modify]
  cases hc : cs[j]? with
  | none => rfl
  | some c => by_cases hj : i = j <;> simp [hj, noted_addSymbol h]

namespace Writer

/-- the symbol is not the one with this name -/
def NotNamed (t : StringTable) (r : SymbolRef) (n : Name) : Prop := ∀ e, t.get n = some e → SymbolRef.named (u32 e.offset) ≠ r

theorem boundSymbols_other {r : SymbolRef} {symstr : StringTable} {a b : Name} {t t' : SymbolTable} {s s' : Section}
    (ha : NotNamed symstr r a) (hb : NotNamed symstr r b)
    (h : boundSymbols symstr a b t s = .ok (t', s')) : s'.chunks.map (noted r) = s.chunks.map (noted r) ∧ t'.get r = t.get r := by
  have tail : ∀ s1 : Section, s1.chunks.map (noted r) = s.chunks.map (noted r) →
      (match symstr.get b with
        | some e => do
          let _ ← unwrap (t.get (.named (u32 e.offset)))
          let t := t.modify (.named (u32 e.offset)) fun x => { x with sym := { x.sym with st_value := s1.sizeOnDisk } }
          let s ← if s1.chunks.length = 0 then .error .panic
            else s1.modifyChunk (s1.chunks.length - 1) (·.addSymbol (.named (u32 e.offset)))
          .ok (t, s)
        | none => .ok (t, s1)) = (.ok (t', s') : M (SymbolTable × Section)) →
      s'.chunks.map (noted r) = s.chunks.map (noted r) ∧ t'.get r = t.get r := by
    intro s1 e1 h2
    cases hbe : symstr.get b with
    | none => rw [hbe] at h2; cases h2; exact ⟨e1, rfl⟩
    | some e =>
      rw [hbe] at h2
      simp only [bind_ok] at h2
      obtain ⟨_, _, h2⟩ := h2
      by_cases hz : s1.chunks.length = 0
      · simp only [if_pos hz] at h2; cases h2
      · simp only [if_neg hz] at h2
        rw [bind_ok] at h2
        obtain ⟨s2, h3, h4⟩ := h2
        cases h4
        obtain ⟨_, rfl⟩ := modifyChunk_ok h3
        have hne := hb e hbe
        exact ⟨(noted_modify hne _ _).trans e1, by rw [SymbolTable.get_modify, if_neg hne]⟩
  unfold boundSymbols at h
  cases hae : symstr.get a with
  | none =>
    rw [hae] at h
    exact tail s rfl h
  | some e =>
    rw [hae] at h
    simp only [] at h
    rw [bind_ok] at h
    obtain ⟨s1, h1, h2⟩ := h
    obtain ⟨_, rfl⟩ := modifyChunk_ok h1
    exact tail { s with chunks := s.chunks.modify 0 (·.addSymbol (.named (u32 e.offset))) } (noted_modify (ha e hae) _ _) h2

/-- the symbol is none of those `handle_special_symbols` adds to a section -/
structure Unbound (t : StringTable) (r : SymbolRef) : Prop where
  initStart : NotNamed t r b!"__init_array_start"
  initEnd : NotNamed t r b!"__init_array_end"
  finiStart : NotNamed t r b!"__fini_array_start"
  finiEnd : NotNamed t r b!"__fini_array_end"

/-- the symbol is none of those `handle_special_symbols` sets -/
structure Ordinary (t : StringTable) (r : SymbolRef) : Prop extends Unbound t r where
  got : NotNamed t r b!"_GLOBAL_OFFSET_TABLE_"

theorem special_unbound {r : SymbolRef} {w w' : Writer} (hr : Unbound w.symstr r) (h : w.handleSpecialSymbols = .ok w') :
    w'.sections.map (fun s => s.chunks.map (noted r)) = w.sections.map (fun s => s.chunks.map (noted r)) ∧
    ∃ g, w.sec P.gotPlt = .ok g ∧ w'.symtab.get r = (match w.symstr.get b!"_GLOBAL_OFFSET_TABLE_" with
      | some e => w.symtab.modify (.named (u32 e.offset)) fun s =>
          { s with sym := { s.sym with st_shndx := u16 g.index, st_value := g.sh.sh_addr } }
      | none => w.symtab).get r := by
  simp only [handleSpecialSymbols, bind_ok, Prod.exists] at h
  obtain ⟨g, hg, a, _, b, _, t, secs, h1, c, _, h2⟩ := h
  cases h2
  have key : ∀ {t s t' s'}, specialStep w.shstr w.symstr [a.sh.sh_name, b.sh.sh_name] t s = .ok (t', s') →
      s'.chunks.map (noted r) = s.chunks.map (noted r) ∧ t'.get r = t.get r := by
    intro t s t' s' h
    unfold specialStep at h
    split at h
    · cases h; exact ⟨rfl, rfl⟩
    · split at h
      · exact boundSymbols_other hr.initStart hr.initEnd h
      · split at h
        · exact boundSymbols_other hr.finiStart hr.finiEnd h
        · cases h; exact ⟨rfl, rfl⟩
  refine ⟨?_, g, hg, ?_⟩
  · exact mapAccumM_map_eq (F := fun s : Section => s.chunks.map (noted r)) (G := fun s : Section => s.chunks.map (noted r))
      (fun _ _ _ _ h => (key h).1) h1
  · exact mapAccumM_state (G := fun t : SymbolTable => t.get r) (fun s a s' b h => (key h).2) h1

theorem special_other {r : SymbolRef} {w w' : Writer} (hr : Ordinary w.symstr r) (h : w.handleSpecialSymbols = .ok w') :
    w'.symtab.get r = w.symtab.get r := by
  obtain ⟨_, g, _, h1⟩ := special_unbound hr.toUnbound h
  rw [h1]
  cases hg : w.symstr.get b!"_GLOBAL_OFFSET_TABLE_" with
  | none => rfl
  | some e => simp only []; rw [SymbolTable.get_modify, if_neg (hr.got e hg)]

theorem patchPlt_noted (r : SymbolRef) {sched : Sched} {w w' : Writer} (h : w.patchPlt sched = .ok w') :
    w'.sections.map (fun s => s.chunks.map (noted r)) = w.sections.map (fun s => s.chunks.map (noted r)) := by
  obtain ⟨p, g, pc, gc, pd, gd, _, _, _, _, _, _, rfl⟩ := patchPlt_ok h
  have key : ∀ (d : Bytes) (s : Section), (setChunk0 d s).chunks.map (noted r) = s.chunks.map (noted r) := by
    intro d s
    simp only [setChunk0]
    apply List.ext_getElem?
    intro j
    simp only [List.getElem?_map, List.getElem?_modify]
    cases hc : s.chunks[j]? with
    | none => rfl
    | some c => by_cases hj : 0 = j <;> simp [hj, noted]
  exact (modSec_map (F := fun s : Section => s.chunks.map (noted r)) (f := setChunk0 gd) (fun s _ => key gd s)).trans
    (modSec_map (F := fun s : Section => s.chunks.map (noted r)) (f := setChunk0 pd) (fun s _ => key pd s))

/-- the mentions of an ordinary symbol in a section on its way through `compute_sections` -/
theorem Trip.noted {sched : Sched} {w : Writer} {st : Stages sched w} {i : Nat} {s0 a p q u v s : Section} (T : Trip st i s0 a p q u v s)
    {r : SymbolRef} (hr : Unbound w.symstr r) :
    u.chunks.map (noted r) = s0.chunks.map (noted r) ++ (st.growth a.ptr).add.map fun _ => [] := by
  have hsym : st.patched.symstr = w.symstr := by
    rw [st.patched_tables.2.2.2.2.2.2.2.2.1]
    have h2 := genDynRels_rest st.hdynrel
    rw [h2]
    exact st.filled_tables.2.2.2.2.2.2.2.2.1
  have h1 := (special_unbound (r := r) (by rw [hsym]; exact hr) st.hspecial).1
  have h2 := patchPlt_noted r st.hpatch
  have h3 : st.entries.sections = st.placed.sections := by rw [addDynEntries_rest st.hentries]; rfl
  have e1 := congrArg (·[i]?) h1
  have e2 := congrArg (·[i]?) h2
  simp only [List.getElem?_map, T.special, T.patched, h3, T.placed, Option.map_some, Option.some.injEq] at e1 e2
  have e3 : p.chunks.map (fun c => (c.data, c.symbols, c.relocations)) =
      ((st.growth a.ptr).apply a).chunks.map (fun c => (c.data, c.symbols, c.relocations)) := T.core.2.2.2.2.2
  have e4 : a.chunks.map chunkCore = s0.chunks.map chunkCore := congrArg (·.2.2.2.2.2) T.bare
  have e5 := congrArg (List.map fun x : Bytes × List SymbolRef × List (Rela × SymbolRef) => x.2.1.filter (· == r)) e3
  have e6 := congrArg (List.map fun x : Option Nat × Bytes × List SymbolRef => x.2.2.filter (· == r)) e4
  rw [e1, e2]
  simp only [List.map_map, Growth.apply, List.map_append] at e5 e6
  have e7 : p.chunks.map (Dld.noted r) = a.chunks.map (Dld.noted r) ++ (st.growth a.ptr).add.map fun _ => [] := e5
  have e8 : a.chunks.map (Dld.noted r) = s0.chunks.map (Dld.noted r) := e6
  rw [e7, e8]

end Writer

/-! ### The value of an ordinary symbol -/

variable {opts : Options} {ops : List Op} {sched : Sched} {w w' : Writer} {file : Bytes} {secs : List Section}

/-- null sections go to the null section -/
theorem Hist.null_push (h : Hist opts ops w) {sh : SectionHeader} {d : Option Bytes} {r : SectionRef} (hp : Op.push [] sh d r ∈ ops) : r.ptr = P.null := by
  obtain ⟨w0, pn, h0, hI⟩ := h.winv
  obtain ⟨_, i, h1, h2⟩ := h.cinv.push _ sh d r hp
  rw [Holds.keys hI.names] at h1
  have hh := hI.names.head
  have : i = 0 := by
    have h3 : (tabNames opts.hashStyle ++ pn)[0]? = some [] := by rw [← List.head?_eq_getElem?]; exact hh
    exact (List.getElem?_inj (List.getElem?_eq_some_iff.1 h1).1 hI.names.nodup).1 (h1.trans h3.symm)
  subst this
  obtain ⟨null, rest, e, en⟩ := h.secFacts.head
  rw [e] at h2
  simp only [List.map_cons, List.getElem?_cons_zero, Option.some.injEq] at h2
  rw [← h2, en]

/-- symbols are only noted in the null section and in pushed ones -/
theorem Hist.noted_at (h : Hist opts ops w) (hc : CleanInputs ops) (hr : RefsOk ops) {r : SymbolRef} {sr : SectionRef} (hm : r ∈ notesAt sr ops) :
    (sr.ptr = P.null ∧ ∃ sh d, Op.push [] sh d sr ∈ ops) ∨ (P.first ≤ sr.ptr ∧ ∃ m sh d, m ≠ [] ∧ Op.push m sh d sr ∈ ops) := by
  obtain ⟨s, n, path, h1, _⟩ := mem_notesAt.1 hm
  obtain ⟨m, sh, d, hp⟩ := hr.sym _ _ _ _ _ h1
  by_cases hm : m = []
  · subst hm
    exact .inl ⟨h.null_push hp, _, _, hp⟩
  · obtain ⟨s', _, hsp, hf, _⟩ := h.pushed_section hp (hc.foreign hp hm _)
    exact .inr ⟨by rw [← hsp]; exact hf, m, sh, d, hm, hp⟩

/-- the symbol placed in a chunk -/
def placeAt (r : SymbolRef) (base ix : Nat) (y : Sym) : Sym :=
  { y with st_shndx := ix, st_value := match r with | .section _ _ => base | .named _ => y.st_value + base }

theorem placeSym_foldl (r : SymbolRef) (l : List (Nat × Nat)) (s : Symbol) :
    (l.foldl (fun s n => placeSym r n.1 n.2 s) s).sym = l.foldl (fun y n => placeAt r n.1 n.2 y) s.sym := by
  induction l generalizing s with
  | nil => rfl
  | cons n l ih => rw [List.foldl_cons, ih]; rfl

theorem sym_blind : ScanBlind (fun s : Symbol => s.sym) := fun _ _ _ _ => ⟨rfl, rfl⟩

/-- the symbols before the special ones are set -/
theorem Writer.Mid.patched_sym (st : Mid sched w) : st.patched.symtab.view (·.sym) = w.symtab.view (·.sym) := by
  rw [st.patched_tables.1, (genDynRels_view (F := fun s : Symbol => s.sym) (G := fun _ : Symbol => ()) (fun _ _ => rfl) (fun _ _ _ => rfl) st.hdynrel).1]
  exact (congrArg _ st.filled_tables.1).trans (scan_view sym_blind st.hscan)

theorem Writer.Mid.patched_symstr (st : Mid sched w) : st.patched.symstr = w.symstr := by
  rw [st.patched_tables.2.2.2.2.2.2.2.2.1, genDynRels_rest st.hdynrel]
  exact st.filled_tables.2.2.2.2.2.2.2.2.1

/-- where a symbol ends up, from the chunks it is noted in -/
theorem Hist.symbol (hh : Hist opts ops w) (hv : sched.Valid) (st : Stages sched w) (hst : st.final = w') {r : SymbolRef}
    (hq : ∀ u ∈ st.special.sections, (u.ptr = P.sym ∨ u.ptr = P.dynsym) → ∀ c ∈ u.chunks, r ∉ c.symbols) (hn : NamesFit w) :
    (w'.symtab.get r).map (·.sym) = (st.special.symtab.get r).map fun x =>
      (notesOf r (st.special.sections.drop 1)).foldl (fun y n => placeAt r n.1 n.2 y) x.sym := by
  obtain ⟨g, pl, y, d, rest, _, _, hy, hd, h1, _⟩ := handleRelocations_ok st.hreloc
  rw [← hst, st.final_tables.1, h1, patchAll_get, Option.map_map, notesOf_filter]
  · congr 1
    funext x
    exact placeSym_foldl _ _ _
  · intro u hu hf
    have hu := List.mem_of_mem_drop hu
    obtain ⟨i, hi⟩ := List.getElem?_of_mem hu
    obtain ⟨s, hs, _⟩ := getElem?_of_map st.posts.2.2.2.1 hi
    obtain ⟨s0, a, p, q, u', v, T⟩ := st.trip hv hh.secFacts hh.untouched hs
    have := T.special
    rw [hi] at this
    cases this
    rw [T.relocatable hv hh hn hy hd, ← T.ptr_u] at hf
    refine hq u hu ?_
    simp only [Bool.and_eq_false_iff, bne_eq_false_iff_eq] at hf
    exact hf

theorem Run.symbol (h : Run opts ops sched w w' file secs) (st : Stages sched w) (hst : st.final = w') {r : SymbolRef}
    (hq : ∀ u ∈ st.special.sections, (u.ptr = P.sym ∨ u.ptr = P.dynsym) → ∀ c ∈ u.chunks, r ∉ c.symbols) (hn : NamesFit w) :
    (w'.symtab.get r).map (·.sym) = (st.special.symtab.get r).map fun x =>
      (notesOf r (st.special.sections.drop 1)).foldl (fun y n => placeAt r n.1 n.2 y) x.sym := h.hist.symbol h.valid st hst hq hn

/-- the chunks of the output that mention an ordinary symbol -/
theorem Hist.mentions (hh : Hist opts ops w) (hv : sched.Valid) (hc : CleanInputs ops) (hrf : RefsOk ops) (st : Stages sched w) {r : SymbolRef}
    (ho : Unbound w.symstr r) {i : Nat} {s0 a p q u v s : Section} (T : Trip st i s0 a p q u v s) (hi : 0 < i) :
    (∀ k c, u.chunks[k]? = some c → r ∈ c.symbols → P.first ≤ u.ptr ∧ r ∈ notesAt ⟨u.ptr, k⟩ ops) ∧
    (∀ k, P.first ≤ u.ptr → r ∈ notesAt ⟨u.ptr, k⟩ ops → ∃ c c0, u.chunks[k]? = some c ∧ s0.chunks[k]? = some c0 ∧ c.symbols.filter (· == r) = [r]) := by
  have hT := T.noted ho
  obtain ⟨w0, pn, h0, hI⟩ := hh.winv
  have hsym : ∀ k c, s0.chunks[k]? = some c → c.symbols = notedAt ⟨s0.ptr, k⟩ ops := fun k c hk =>
    (hh.cinv.chunk ⟨s0.ptr, k⟩ c (by rw [chunkAt_of_mem (hI.ptrs_nodup h0) T.mem0]; exact hk)).2.2
  have hptr : s0.ptr ≠ P.null := by
    intro e
    obtain ⟨j, hj, _, hji⟩ := T.src
    obtain ⟨null, rest, e1, en⟩ := hh.secFacts.head
    have : (w.sections.map (·.ptr))[0]? = (w.sections.map (·.ptr))[j]? := by
      rw [List.getElem?_map, List.getElem?_map, hj, e1]; simp [e, en]
    have hl : 0 < (w.sections.map (·.ptr)).length := by rw [e1]; simp
    have := (List.getElem?_inj hl (hI.ptrs_nodup h0)).1 this
    have := hji.1 this.symm
    omega
  refine ⟨fun k c hk hm => ?_, fun k hf hm => ?_⟩
  · have h1 := congrArg (·[k]?) hT
    simp only [List.getElem?_map, hk, Option.map_some] at h1
    have hne : noted r c ≠ [] := by
      unfold noted
      intro e
      rw [List.filter_eq_nil_iff] at e
      exact e r hm (by simp)
    by_cases hl : k < s0.chunks.length
    · rw [List.getElem?_append_left (by simpa using hl), List.getElem?_map, List.getElem?_eq_getElem hl] at h1
      simp only [Option.map_some, Option.some.injEq] at h1
      have h2 := hsym k _ (List.getElem?_eq_getElem hl)
      have h3 : r ∈ (s0.chunks[k]).symbols := by
        rw [h1] at hne
        unfold noted at hne
        apply Classical.byContradiction
        intro hcon
        apply hne
        rw [List.filter_eq_nil_iff]
        intro z hz e
        simp only [beq_iff_eq] at e
        subst e
        exact hcon hz
      rw [h2, mem_notedAt] at h3
      rw [T.ptr_u]
      rcases hh.noted_at hc hrf h3 with ⟨h4, _⟩ | ⟨h4, _⟩
      · exact absurd h4 hptr
      · exact ⟨h4, h3⟩
    · rw [List.getElem?_append_right (by simpa using hl)] at h1
      have := List.mem_of_getElem? h1.symm
      obtain ⟨_, _, e⟩ := List.mem_map.1 this
      exact absurd e.symm hne
  · rw [T.ptr_u] at hf hm
    cases hk : s0.chunks[k]? with
    | none =>
      have h1 := (hh.cinv.absent ⟨s0.ptr, k⟩ (by rw [chunkAt_of_mem (hI.ptrs_nodup h0) T.mem0]; exact hk)).2
      rw [← mem_notedAt, h1] at hm
      cases hm
    | some c0 =>
      have h2 := hsym k c0 hk
      have h3 : noted r c0 = [r] := by
        unfold noted
        rw [h2]
        exact filter_beq_nodup (nodup_notedAt _ _) (mem_notedAt.2 hm)
      have hl : k < s0.chunks.length := (List.getElem?_eq_some_iff.1 hk).1
      have h1 := congrArg (·[k]?) hT
      simp only [List.getElem?_map] at h1
      rw [List.getElem?_append_left (by simpa using hl), List.getElem?_map, hk] at h1
      simp only [Option.map_some, h3] at h1
      obtain ⟨c, hc1, hc2⟩ := Option.map_eq_some_iff.1 h1
      exact ⟨c, c0, hc1, rfl, hc2⟩

theorem Run.mentions (h : Run opts ops sched w w' file secs) (hc : CleanInputs ops) (hrf : RefsOk ops) (st : Stages sched w) {r : SymbolRef}
    (ho : Unbound w.symstr r) {i : Nat} {s0 a p q u v s : Section} (T : Trip st i s0 a p q u v s) (hi : 0 < i) :
    (∀ k c, u.chunks[k]? = some c → r ∈ c.symbols → P.first ≤ u.ptr ∧ r ∈ notesAt ⟨u.ptr, k⟩ ops) ∧
    (∀ k, P.first ≤ u.ptr → r ∈ notesAt ⟨u.ptr, k⟩ ops → ∃ c c0, u.chunks[k]? = some c ∧ s0.chunks[k]? = some c0 ∧ c.symbols.filter (· == r) = [r]) :=
  h.hist.mentions h.valid hc hrf st ho T hi

/-- where the data of a push starts in its section -/
theorem Hist.push_start (h : Hist opts ops w) (hc : CleanInputs ops) {a b : List Op} {n : Name} {sh : SectionHeader} {d : Option Bytes} {r : SectionRef}
    (e : ops = a ++ Op.push n sh d r :: b) (hn : n ≠ []) {s0 : Section} (hs0 : s0 ∈ w.sections) (hsp0 : s0.ptr = r.ptr) :
    ((s0.chunks.take r.chunk).map (·.data.length)).sum = startOf n a := by
  have hp : Op.push n sh d r ∈ ops := by rw [e]; simp
  have hf := hc.foreign hp hn opts.hashStyle
  obtain ⟨s, hs, hsp, hfirst, p, ps, hps, _, _, _, _, hd⟩ := h.pushed_section hp hf
  obtain ⟨w0, pn, h0, hI⟩ := h.winv
  have hss : s0 = s := eq_of_ptr (hI.ptrs_nodup h0) hs0 hs (hsp0.trans hsp.symm)
  subst hss
  have hpo : pushesOf n ops = pushesOf n a ++ (sh, d) :: pushesOf n b := by
    rw [e, pushesOf_append]; simp [pushesOf]
  cases d with
  | none =>
    have hall : ∀ q ∈ pushesOf n ops, q.2 = none := by
      intro q hq
      obtain ⟨r', hr'⟩ := mem_pushesOf (n := n) (ops := ops) (p := q) hq
      have h1 := (hc.nobits n sh none r hn hp).2 rfl
      exact (hc.nobits n q.1 q.2 r' hn hr').1 ((hc.same _ _ _ _ _ _ _ hp hr').1 h1)
    have hz : startOf n a = 0 := by
      unfold startOf
      rw [List.sum_eq_zero_iff_forall_eq_nat]
      intro x hx
      obtain ⟨q, hq, rfl⟩ := List.mem_map.1 hx
      rw [hall q (by rw [hpo]; simp [hq])]; rfl
    rw [hz, List.sum_eq_zero_iff_forall_eq_nat]
    intro x hx
    obtain ⟨c, hcm, rfl⟩ := List.mem_map.1 hx
    have : c.data ∈ s0.chunks.map (·.data) := List.mem_map_of_mem (List.mem_of_mem_take hcm)
    rw [hd] at this
    rw [hps] at hall
    rcases List.mem_cons.1 this with h1 | h1
    · rw [h1, hall p (by simp)]; rfl
    · obtain ⟨q, hq, hq2⟩ := List.mem_filterMap.1 h1
      rw [hall q (by simp [hq])] at hq2; cases hq2
  | some data =>
    have hall := hc.datas hp hn rfl
    have hd' : s0.chunks.map (·.data) = (pushesOf n ops).map fun p => p.2.getD [] := by
      rw [hd, hps, List.map_cons]
      congr 1
      rw [hps] at hall
      have : ∀ q ∈ ps, ∃ x, q.2 = some x ∧ x.length = q.1.sh_size := fun q hq => hall q (by simp [hq])
      exact filterMap_all this
    have hk : r.chunk = (pushesOf n a).length := by
      rw [h.push_ref e hf]
      have hall' : ∀ q ∈ pushesOf n a, ∃ x, q.2 = some x := fun q hq => by
        obtain ⟨x, hx, _⟩ := hall q (by rw [hpo]; simp [hq])
        exact ⟨x, hx⟩
      clear hpo hd hps
      cases hq : pushesOf n a with
      | nil => simp
      | cons q qs =>
        rw [hq] at hall'
        have : ((qs ++ [(sh, some data)]).filterMap (·.2)).length = (qs ++ [(sh, some data)]).length := by
          have h2 : ∀ q ∈ qs ++ [(sh, some data)], ∃ x, q.2 = some x := by
            intro q hq
            rcases List.mem_append.1 hq with h | h
            · exact hall' q (by simp [h])
            · rw [List.mem_singleton.1 h]; exact ⟨data, rfl⟩
          clear hall' hq
          generalize qs ++ [(sh, some data)] = l at h2
          induction l with
          | nil => rfl
          | cons y l ih =>
            obtain ⟨x, hx⟩ := h2 y (by simp)
            rw [List.filterMap_cons, hx]
            simpa using ih fun q hq => h2 q (by simp [hq])
        simpa using this
    unfold startOf
    rw [show (fun c : Chunk => c.data.length) = (fun d : Bytes => d.length) ∘ (·.data) from rfl, ← List.map_map, List.map_take, hd', hk, hpo]
    simp [Function.comp_def]

/-- the symbol tables mention no ordinary symbol -/
theorem Hist.unmentioned (hh : Hist opts ops w) (hv : sched.Valid) (hc : CleanInputs ops) (hrf : RefsOk ops) (st : Stages sched w) {r : SymbolRef}
    (ho : Unbound w.symstr r) : ∀ u ∈ st.special.sections, (u.ptr = P.sym ∨ u.ptr = P.dynsym) → ∀ c ∈ u.chunks, r ∉ c.symbols := by
  intro u hu hp c hcm hm
  obtain ⟨i, hi⟩ := List.getElem?_of_mem hu
  obtain ⟨s, hs, _⟩ := getElem?_of_map st.posts.2.2.2.1 hi
  obtain ⟨s0, a, p, q, u', v, T⟩ := st.trip hv hh.secFacts hh.untouched hs
  have := T.special
  rw [hi] at this
  cases this
  rcases Nat.eq_zero_or_pos i with h0 | h0
  · obtain ⟨j, hj, _, hji⟩ := T.src
    rw [hji.2 h0] at hj
    obtain ⟨null, rest, e, en⟩ := hh.secFacts.head
    rw [e] at hj
    cases hj
    rw [T.ptr_u, en] at hp
    revert hp; decide
  · obtain ⟨k, hk⟩ := List.getElem?_of_mem hcm
    have := ((hh.mentions hv hc hrf st ho T h0).1 k c hk hm).1
    rcases hp with e | e <;> rw [e] at this <;> revert this <;> decide

theorem Run.unmentioned (h : Run opts ops sched w w' file secs) (hc : CleanInputs ops) (hrf : RefsOk ops) (st : Stages sched w) {r : SymbolRef}
    (ho : Unbound w.symstr r) : ∀ u ∈ st.special.sections, (u.ptr = P.sym ∨ u.ptr = P.dynsym) → ∀ c ∈ u.chunks, r ∉ c.symbols :=
  h.hist.unmentioned h.valid hc hrf st ho

/-- **A symbol noted in one input section is placed relative to it.** -/
theorem GoodRun.placed_symbol (G : GoodRun opts ops sched w w' file secs) {r : SymbolRef} (ho : Ordinary w.symstr r) {a b : List Op}
    {m : Name} {sh : SectionHeader} {d : Option Bytes} {sr : SectionRef} (e : ops = a ++ Op.push m sh d sr :: b) (hm : m ≠ [])
    (hin : r ∈ notesAt sr ops) (honly : ∀ sr', r ∈ notesAt sr' ops → P.first ≤ sr'.ptr → sr' = sr) :
    ∃ (i : Nat) (t : Section), secs[i]? = some t ∧ t.ptr = sr.ptr ∧ sectionsNamed file m = [t.sh.toSpec] ∧
      (w'.symtab.get r).map (·.sym) = (w.symtab.get r).map fun x => placeAt r (t.sh.sh_addr + startOf m a) (u16 i) x.sym := by
  have hp : Op.push m sh d sr ∈ ops := by rw [e]; simp
  obtain ⟨t, ht, htp, hsn⟩ := G.push_section hp
  obtain ⟨i, hi⟩ := List.getElem?_of_mem ht
  obtain ⟨s, hs, hfin, hfz⟩ := G.run.finalized hi
  obtain ⟨st, hst⟩ := G.run.stages
  subst hst
  obtain ⟨s0, x, p, q, u, v, T⟩ := st.trip G.run.valid G.run.hist.secFacts G.run.hist.untouched hs
  have hup : u.ptr = sr.ptr := by rw [T.ptr_u, ← T.ptr, ← hfin.ptr, htp]
  obtain ⟨s1, _, hsp1, hf1, _⟩ := G.run.hist.pushed_section hp (G.good.clean.foreign hp hm _)
  have hpos : 0 < i := by
    rcases Nat.eq_zero_or_pos i with h0 | h0
    · obtain ⟨j, hj, _, hji⟩ := T.src
      rw [hji.2 h0] at hj
      obtain ⟨null, rest, e, en⟩ := G.run.hist.secFacts.head
      rw [e] at hj
      cases hj
      rw [hsp1, ← hup, T.ptr_u, en] at hf1
      exact absurd hf1 (by decide)
    · exact h0
  have hm1 := G.run.mentions G.good.clean G.good.refs st ho.toUnbound T hpos
  obtain ⟨c, c0, hc, hc0, hone⟩ := hm1.2 sr.chunk (by rw [hup, ← hsp1]; exact hf1) (by rw [hup]; exact hin)
  have hsec : st.special.symtab.get r = st.patched.symtab.get r := special_other (by rw [st.patched_symstr]; exact ho) st.hspecial
  have hsym := SymbolTable.view_get st.patched_sym r
  refine ⟨i, t, hi, htp, hsn, ?_⟩
  rw [G.run.symbol st rfl (G.run.unmentioned G.good.clean G.good.refs st ho.toUnbound) G.names, hsec]
  have hidx : u.index = i := (congrArg (·.2.1) T.named.1).trans ((congrArg (·.2.1) T.patch.1).trans (T.core.2.1.trans rfl))
  have haddr : u.sh.sh_addr = t.sh.sh_addr := by
    have h1 : u.sh = p.sh := (congrArg (·.2.2.2.2) T.named.1).trans (congrArg (·.2.2.2.2) T.patch.1)
    rw [h1, hfin.sh, T.sh_p]
  have hlen : ((u.chunks.take sr.chunk).map (·.data.length)).sum = startOf m a := by
    rw [← G.run.hist.push_start G.good.clean e hm T.mem0 (by rw [← T.ptr_u, hup])]
    have hq : q = p := T.patch.2 (by rw [T.ptr_p, ← T.ptr_u, hup, ← hsp1]; intro e; rw [e] at hf1; revert hf1; decide)
      (by rw [T.ptr_p, ← T.ptr_u, hup, ← hsp1]; intro e; rw [e] at hf1; revert hf1; decide)
    have h1 : u.chunks.map (·.data.length) = p.chunks.map (·.data.length) := by
      have := congrArg (List.map fun x : Option Nat × Bytes × List (Rela × SymbolRef) => x.2.1.length) T.named.2
      rw [hq] at this
      simpa [Function.comp_def, chunkBody] using this
    have h2 : p.chunks.map (·.data.length) = x.chunks.map (·.data.length) := by
      have := congrArg (List.map fun x : Bytes × List SymbolRef × List (Rela × SymbolRef) => x.1.length) T.core.2.2.2.2.2
      rw [st.growth_pushed (p := x.ptr) (by rw [T.ptr_a, ← T.ptr_u, hup, ← hsp1]; exact hf1)] at this
      simpa [Function.comp_def, Growth.apply] using this
    have h3 : x.chunks.map (·.data.length) = s0.chunks.map (·.data.length) := by
      have := congrArg (List.map fun x : Option Nat × Bytes × List SymbolRef => x.2.1.length) (congrArg (·.2.2.2.2.2) T.bare)
      simpa [Function.comp_def, chunkCore, bare] using this
    rw [List.map_take, h1, h2, h3, List.map_take]
  have hn : notesOf r (st.special.sections.drop 1) = [(t.sh.sh_addr + startOf m a, u16 i)] := by
    unfold notesOf
    rw [flatMap_at (i := i - 1) (x := u)]
    · rw [notesIn_one hc hone, hlen, haddr, hidx]
      intro k c' hk hne hcon
      have := (hm1.1 k c' hk hcon)
      have h2 := honly _ this.2 this.1
      rw [← h2] at hne
      exact hne rfl
    · rw [List.getElem?_drop, Nat.add_sub_cancel' hpos]; exact T.special
    · intro j u' hj hne
      rw [List.getElem?_drop] at hj
      refine notesIn_nil (fun c' hc' hcon => ?_) _
      obtain ⟨s', hs', _⟩ := getElem?_of_map st.posts.2.2.2.1 hj
      obtain ⟨s0', x', p', q', u2, v', T'⟩ := st.trip G.run.valid G.run.hist.secFacts G.run.hist.untouched hs'
      have := T'.special
      rw [hj] at this
      cases this
      obtain ⟨k, hk⟩ := List.getElem?_of_mem hc'
      have h1 := (G.run.mentions G.good.clean G.good.refs st ho.toUnbound T' (by omega)).1 k c' hk hcon
      have h2 := honly _ h1.2 h1.1
      have h3 : u'.ptr = u.ptr := by rw [hup, ← h2]
      obtain ⟨w0, pn, h0, hI⟩ := G.run.hist.winv
      have hptrs : (st.special.sections.map (·.ptr)).Nodup := by
        have h1 := congrArg (List.map (·.1)) (st.posts.2.2.2.1.trans st.posts.1.symm)
        rw [List.map_map, List.map_map] at h1
        exact h1 ▸ st.placed_nodup G.run.valid G.run.hist.secFacts G.run.hist.untouched
      have hl : 1 + j < (st.special.sections.map (·.ptr)).length := by
        simpa using (List.getElem?_eq_some_iff.1 hj).1
      have := (List.getElem?_inj (j := i) hl hptrs).1 (by
        rw [List.getElem?_map, List.getElem?_map, hj, T.special, Option.map_some, Option.map_some, h3])
      omega
  rw [hn]
  simp only [List.foldl_cons, List.foldl_nil]
  have := congrArg (Option.map fun y : Sym => placeAt r (t.sh.sh_addr + startOf m a) (u16 i) y) hsym
  simpa [Option.map_map, Function.comp_def] using this

/-- a symbol noted in no input section is not moved -/
theorem Hist.unplaced_symbol (hh : Hist opts ops w) (hv : sched.Valid) (hg : GoodInputs ops) (hn : NamesFit w) (st : Stages sched w) (hst : st.final = w') {r : SymbolRef}
    (ho : Unbound w.symstr r) (hnone : ∀ sr, r ∈ notesAt sr ops → sr.ptr < P.first) :
    (w'.symtab.get r).map (·.sym) = (st.special.symtab.get r).map (·.sym) := by
  subst hst
  rw [hh.symbol hv st rfl (hh.unmentioned hv hg.clean hg.refs st ho) hn]
  have : notesOf r (st.special.sections.drop 1) = [] := by
    unfold notesOf
    rw [List.flatMap_eq_nil_iff]
    intro u hu
    refine notesIn_nil (fun c hc hcon => ?_) _
    obtain ⟨j, hj⟩ := List.getElem?_of_mem hu
    rw [List.getElem?_drop] at hj
    obtain ⟨s, hs, _⟩ := getElem?_of_map st.posts.2.2.2.1 hj
    obtain ⟨s0, x, p, q, u2, v, T⟩ := st.trip hv hh.secFacts hh.untouched hs
    have := T.special
    rw [hj] at this
    cases this
    obtain ⟨k, hk⟩ := List.getElem?_of_mem hc
    have h1 := (hh.mentions hv hg.clean hg.refs st ho T (by omega)).1 k c hk hcon
    exact absurd h1.1 (Nat.not_le.2 (hnone _ h1.2))
  rw [this]
  rfl

theorem GoodRun.unplaced_symbol (G : GoodRun opts ops sched w w' file secs) (st : Stages sched w) (hst : st.final = w') {r : SymbolRef}
    (ho : Unbound w.symstr r) (hnone : ∀ sr, r ∈ notesAt sr ops → sr.ptr < P.first) :
    (w'.symtab.get r).map (·.sym) = (st.special.symtab.get r).map (·.sym) :=
  G.run.hist.unplaced_symbol G.run.valid G.good G.names st hst ho hnone

end Dld
