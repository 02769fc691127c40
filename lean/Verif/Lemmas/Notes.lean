import Verif.Lemmas.Progress2
/-! # How often and where symbols are placed -/
namespace Dld
open Writer Spec StringTable

variable {opts : Options} {ops : List Op} {sched : Sched} {w w' : Writer}

/-! ### The number of chunks that mention a symbol -/

/-- how often a symbol is mentioned in a section other than the null section -/
def Section.notes (r : SymbolRef) (s : Section) : Nat := if s.ptr = P.null then 0 else (s.chunks.map fun c => (noted r c).length).sum

/-- how often a symbol is mentioned in sections -/
def notesCount (r : SymbolRef) (l : List Section) : Nat := (l.map (Section.notes r)).sum

theorem noted_add_le (r r' : SymbolRef) (c : Chunk) : (noted r (c.addSymbol r')).length ≤ (noted r c).length + if r' = r then 1 else 0 := by
  unfold noted Chunk.addSymbol
  split
  · omega
  · by_cases h : r' = r <;> simp [h]

theorem modChunk_notes {sr : SectionRef} {f : Chunk → Chunk} {r : SymbolRef} {k : Nat} (hn : (w.sections.map (·.ptr)).Nodup)
    (hf : ∀ c : Chunk, (noted r (f c)).length ≤ (noted r c).length + k)
    (h : w.modChunk sr f = .ok w') : notesCount r w'.sections ≤ notesCount r w.sections + if sr.ptr = P.null then 0 else k := by
  simp only [modChunk, bind_ok] at h
  obtain ⟨s, _, h⟩ := h
  split at h
  · rw [← Except.ok.inj h]
    refine sum_at_le' _ hn fun s _ hp => ?_
    rw [← hp]
    unfold Section.notes
    by_cases hz : s.ptr = P.null
    · simp only [if_pos hz]; omega
    · simp only [if_neg hz]
      exact sum_modify_le _ _ fun c _ => hf c
  · cases h

theorem noteSymbol_notes {e : Sym} {sec : Option SectionRef} {r y : SymbolRef} (hn : (w.sections.map (·.ptr)).Nodup) (h : w.noteSymbol e sec y = .ok w') :
    notesCount r w'.sections ≤ notesCount r w.sections + if (∃ sr, sec = some sr ∧ sr.ptr ≠ P.null) ∧ y = r then 1 else 0 := by
  unfold noteSymbol at h
  split at h
  · cases h; omega
  · split at h
    · refine Nat.le_trans (modChunk_notes (k := if y = r then 1 else 0) hn (fun c => noted_add_le r y c) h) ?_
      by_cases h1 : y = r <;> by_cases h2 : ‹SectionRef›.ptr = P.null <;> simp [h1, h2]
    · cases h; omega

theorem Step.notes (hn : (w.sections.map (·.ptr)).Nodup) {op : Op} (h : Step w op w') (r : SymbolRef) :
    notesCount r w'.sections ≤ notesCount r w.sections + if op.attaches r then 1 else 0 := by
  cases h with
  | @push _ name sh data r' h =>
    simp only [Op.attaches, Bool.false_eq_true, if_false, Nat.add_zero]
    unfold pushSection at h
    simp only at h
    split at h
    · cases h
      simp [notesCount, Section.notes, noted]
    · split at h
      · cases h
      · next s hsi =>
        split at h
        · next d =>
          cases h
          exact sum_set_le (f := Section.notes r) (k := 0)
            (b := Section.addChunk { s with sh := { s.sh with sh_size := s.sh.sh_size + sh.sh_size, sh_addralign := max s.sh.sh_addralign sh.sh_addralign } } d) w.sections _
            fun a ha => by rw [hsi] at ha; cases ha; simp [Section.addChunk, Section.notes, noted]
        · split at h
          · cases h
          · cases h
            exact sum_set_le (f := Section.notes r) (k := 0)
              (b := { s with sh := { s.sh with sh_size := s.sh.sh_size + sh.sh_size, sh_addralign := max s.sh.sh_addralign sh.sh_addralign } }) w.sections _
              fun a ha => by rw [hsi] at ha; cases ha; simp [Section.notes]
  | @sym _ s sec name path y h =>
    simp only [addSymbol] at h
    split at h
    · cases h
    · next t r' ht =>
      simp only [bind_ok] at h
      obtain ⟨w1, h1, h2⟩ := h
      cases h2
      have h3 := noteSymbol_notes (w := { w with symstr := (w.symstr.getOrCreate name).2, symtab := t }) (r := r) hn h1
      cases sec with
      | none => simp at h3; omega
      | some sr => simpa [Op.attaches, and_comm] using h3
  | @dynsym _ s name path y h =>
    simp only [addDynSymbol] at h
    split at h
    · cases h
    · split at h
      · cases h; simp [Op.attaches]
      · split at h
        · cases h
        · cases h; simp [Op.attaches]
  | reloc h =>
    simp only [addRelocation] at h
    split at h
    · cases h
    · have := modChunk_notes (k := 0) (r := r) hn (fun c => by simp [Chunk.addRelocation, noted]) h
      simp only [ite_self] at this
      omega
  | @needed name =>
    unfold addNeeded
    simp only
    split <;> simp [Op.attaches]

theorem Hist.notes (h : Hist opts ops w) (r : SymbolRef) : notesCount r w.sections ≤ (ops.filter (Op.attaches r)).length := by
  induction h with
  | @init w0 h =>
    have : ∀ s ∈ w0.sections, Section.notes r s = 0 := by
      intro s hs
      have := new_address h s hs
      rw [Section.notes, List.map_congr_left (g := fun _ => 0) fun c hc => by rw [noted, (this c hc).2.2]; rfl, sum_map_const, Nat.zero_mul, ite_self]
    rw [notesCount, List.map_congr_left this, sum_map_const, Nat.zero_mul]
    exact Nat.zero_le _
  | @step _ op _ _ h hs ih =>
    have := hs.notes h.secFacts.nodup r
    rw [List.filter_append, List.length_append]
    cases ho : op.attaches r <;> simp [ho] at this ⊢ <;> omega

/-! ### The values before placing -/

open SymbolTable in
theorem Hist.values (h : Hist opts ops w) {V : Nat} (hV : ∀ s sec n path r, Op.sym s sec n path r ∈ ops → s.st_value ≤ V) {r : SymbolRef} {s : Symbol}
    (hs : w.symtab.get r = some s) : s.sym.st_value ≤ V := by
  obtain ⟨ns, nd, T⟩ := h.tableFacts
  have := addAll_forall (P := fun _ s => s.sym.st_value ≤ V) T.inv.sym ?_ ?_ ?_ ?_ r (undyn s) (by rw [get_mapSyms, hs]; rfl)
  · exact this
  · intro a ha _
    obtain ⟨s, sec, n, path, r, hm, rfl⟩ := mem_symAdds ha
    exact hV s _ _ _ _ hm
  · intro a ha _ _
    obtain ⟨s, sec, n, path, r, hm, rfl⟩ := mem_symAdds ha
    exact hV s _ _ _ _ hm
  · intro a ha r old s ho hr
    obtain ⟨e, sec, n, path, r, hm, rfl⟩ := mem_symAdds ha
    have := hV _ _ _ _ _ hm
    unfold resolve at hr
    split at hr
    · cases hr
    · split at hr
      · cases hr; exact this
      · split at hr <;> cases hr <;> exact ho
  · intro r s hr
    obtain ⟨_, rfl⟩ := new_get hr
    exact Nat.zero_le _

open SymbolTable in
theorem Hist.dynValues (h : Hist opts ops w) {r : SymbolRef} {s : Symbol} (hs : w.dynsym.get r = some s) : s.sym.st_value = 0 := by
  obtain ⟨ns, nd, T⟩ := h.tableFacts
  refine addAll_forall (P := fun _ s => s.sym.st_value = 0) T.inv.dyn ?_ ?_ ?_ ?_ r s hs
  · intro a ha _
    obtain ⟨s, n, path, r, hm, rfl⟩ := mem_dynAdds ha
    rfl
  · intro a ha _ _
    obtain ⟨s, n, path, r, hm, rfl⟩ := mem_dynAdds ha
    rfl
  · intro a ha r old s ho hr
    obtain ⟨e, n, path, r, hm, rfl⟩ := mem_dynAdds ha
    unfold resolve at hr
    split at hr
    · cases hr
    · split at hr
      · cases hr; rfl
      · split at hr <;> cases hr <;> exact ho
  · intro r s hr
    obtain ⟨_, rfl⟩ := new_get hr
    rfl

/-! ### Pushed sections -/

theorem le_sum_of_mem {l : List Nat} {a : Nat} (h : a ∈ l) : a ≤ l.sum := by
  induction l with
  | nil => cases h
  | cons b l ih =>
    rw [List.sum_cons]
    rcases List.mem_cons.1 h with rfl | h
    · omega
    · have := ih h; omega

theorem Hist.pushed_chunks (h : Hist opts ops w) (hc : CleanInputs ops) {s : Section} (hs : s ∈ w.sections) (hp : P.first ≤ s.ptr) :
    s.chunks ≠ [] ∧ (s.chunks.map (·.data.length)).sum ≤ s.sh.sh_size ∧ s.sh.sh_size ≤ w.weight := by
  obtain ⟨w0, pn, h0, hI⟩ := h.winv
  obtain ⟨i, hi⟩ := List.getElem?_of_mem hs
  have hw : s.sh.sh_size ≤ w.weight := by
    have : s.sh.sh_size + 4300 ≤ (w.sections.map fun s => s.sh.sh_size + 4300).sum := le_sum_of_mem (List.mem_map.2 ⟨s, hs, rfl⟩)
    unfold Writer.weight; omega
  by_cases hlt : i < (tabNames opts.hashStyle).length
  · obtain ⟨b, n, hb, _, hm⟩ := hI.base i s hlt hi
    have h1 := congrArg (·[i]?) (hI.ptrs h0)
    simp only [List.getElem?_map, hi, Option.map_some] at h1
    rw [List.getElem?_append_left (by rw [List.length_map, (base_length _).2]; exact hlt)] at h1
    have h2 := List.mem_of_getElem? h1.symm
    have hlt : ∀ o ∈ (baseIdents opts.hashStyle).map (·.1), o < P.first := by cases opts.hashStyle <;> decide
    exact absurd (hlt _ h2) (Nat.not_lt.2 hp)
  · obtain ⟨n, p, ps, hn, hps, hm⟩ := hI.pushed (i - (tabNames opts.hashStyle).length) s (by rw [Nat.add_sub_cancel' (by omega)]; exact hi)
    have hd := hm.data
    have hsz : s.sh.sh_size = p.1.sh_size + (ps.map (·.1.sh_size)).sum := by rw [hm.sh]; rfl
    refine ⟨?_, ?_, hw⟩
    · intro e; rw [e] at hd; simp [firstSection] at hd
    · have h2 : (s.chunks.map (·.data.length)) = ((s.chunks.map (·.data)).map List.length) := by rw [List.map_map]; rfl
      rw [h2, hd, hsz]
      have hb : ∀ q ∈ p :: ps, (q.2.getD []).length ≤ q.1.sh_size := by
        intro q hq
        rw [← hps] at hq
        obtain ⟨r, hr⟩ := mem_pushesOf hq
        cases hx : q.2 with
        | none => exact Nat.zero_le _
        | some b => rw [hx] at hr; exact Nat.le_of_eq (hc.size _ _ _ _ hr)
      have hb1 := hb p (by simp)
      have hb2 : ∀ l : List (SectionHeader × Option Bytes), (∀ q ∈ l, (q.2.getD []).length ≤ q.1.sh_size) →
          ((l.filterMap (·.2)).map List.length).sum ≤ (l.map (·.1.sh_size)).sum := by
        intro l
        induction l with
        | nil => simp
        | cons q l ih =>
          intro hl
          have h1 := ih fun q hq => hl q (by simp [hq])
          have h3 := hl q (by simp)
          rw [List.filterMap_cons]
          cases hx : q.2 with
          | none => simp only [List.map_cons, List.sum_cons]; omega
          | some b => rw [hx] at h3; simp only [Option.getD_some] at h3; simp only [List.map_cons, List.sum_cons]; omega
      have hb3 := hb2 ps fun q hq => hb q (by simp [hq])
      simp only [firstSection, List.map_cons, List.map_nil, List.map_append, List.sum_append, List.sum_cons, List.sum_nil]
      omega

/-! ### `handle_special_symbols` -/

/-- a symbol with another section, and the same value or one up to `B` -/
def Moved (B : Nat) (x x' : Symbol) : Prop :=
  ∃ v ix, x' = { x with sym := { x.sym with st_value := v, st_shndx := ix } } ∧ (v = x.sym.st_value ∨ v ≤ B)

theorem Moved.refl (B : Nat) (x : Symbol) : Moved B x x := ⟨_, _, rfl, .inl rfl⟩

theorem Moved.trans {B : Nat} {x y z : Symbol} (h1 : Moved B x y) (h2 : Moved B y z) : Moved B x z := by
  obtain ⟨v, ix, rfl, hv⟩ := h1
  obtain ⟨v', ix', rfl, hv'⟩ := h2
  refine ⟨v', ix', rfl, ?_⟩
  rcases hv' with rfl | h
  · exact hv
  · exact .inr h

/-- the symbols of a table after some were moved -/
def TMoved (B : Nat) (t t' : SymbolTable) : Prop :=
  ∀ r, (∀ x, t.get r = some x → ∃ x', t'.get r = some x' ∧ Moved B x x') ∧ (t.get r = none → t'.get r = none)

theorem TMoved.refl (B : Nat) (t : SymbolTable) : TMoved B t t := fun _ => ⟨fun x hx => ⟨x, hx, .refl B x⟩, id⟩

theorem TMoved.trans {B : Nat} {t u v : SymbolTable} (h1 : TMoved B t u) (h2 : TMoved B u v) : TMoved B t v := fun r => by
  refine ⟨fun x hx => ?_, fun hx => (h2 r).2 ((h1 r).2 hx)⟩
  obtain ⟨y, hy, m1⟩ := (h1 r).1 x hx
  obtain ⟨z, hz, m2⟩ := (h2 r).1 y hy
  exact ⟨z, hz, m1.trans m2⟩

theorem TMoved.back {B : Nat} {t t' : SymbolTable} (h : TMoved B t t') {r : SymbolRef} {x' : Symbol} (hx : t'.get r = some x') :
    ∃ x, t.get r = some x ∧ Moved B x x' := by
  cases ht : t.get r with
  | none => rw [(h r).2 ht] at hx; cases hx
  | some x =>
    obtain ⟨y, hy, m⟩ := (h r).1 x ht
    rw [hx] at hy; cases hy
    exact ⟨x, rfl, m⟩

theorem TMoved.isSome {B : Nat} {t t' : SymbolTable} (h : TMoved B t t') {r : SymbolRef} (hx : (t.get r).isSome) : (t'.get r).isSome := by
  obtain ⟨x, hx⟩ := Option.isSome_iff_exists.1 hx
  obtain ⟨y, hy, _⟩ := (h r).1 x hx
  rw [hy]; rfl

theorem TMoved.modify {B : Nat} {t : SymbolTable} {r : SymbolRef} {f : Symbol → Symbol} (hf : ∀ x, Moved B x (f x)) : TMoved B t (t.modify r f) := by
  intro r'
  rw [SymbolTable.get_modify]
  by_cases h : r = r'
  · subst h
    rw [if_pos rfl]
    refine ⟨fun x hx => ⟨f x, by rw [hx]; rfl, hf x⟩, fun hx => by rw [hx]; rfl⟩
  · rw [if_neg h]
    exact ⟨fun x hx => ⟨x, hx, .refl B x⟩, id⟩

theorem notes_modify (r r' : SymbolRef) (s : Section) (i : Nat) :
    Section.notes r { s with chunks := s.chunks.modify i (·.addSymbol r') } ≤ Section.notes r s + 1 := by
  unfold Section.notes
  by_cases hz : s.ptr = P.null
  · simp only [if_pos hz]; omega
  · simp only [if_neg hz]
    exact sum_modify_le _ _ fun c _ => Nat.le_trans (noted_add_le r r' c) (by split <;> omega)

theorem modifyChunk_progress {s : Section} {i : Nat} {f : Chunk → Chunk} (h : i < s.chunks.length) :
    s.modifyChunk i f = .ok { s with chunks := s.chunks.modify i f } := by
  unfold Section.modifyChunk
  rw [if_pos h]

theorem boundSymbols_progress {symstr : StringTable} {a b : Name} {t : SymbolTable} {s : Section} (hc : 0 < s.chunks.length)
    (ht : ∀ e, symstr.get b = some e → (t.get (.named (u32 e.offset))).isSome) {B : Nat} (hB : s.sizeOnDisk ≤ B) :
    ∃ t' s', boundSymbols symstr a b t s = .ok (t', s') ∧ TMoved B t t' ∧ ∀ r, Section.notes r s' ≤ Section.notes r s + 2 := by
  have tail : ∀ s1 : Section, 0 < s1.chunks.length → s1.sizeOnDisk ≤ B → ∃ t' s', (match symstr.get b with
        | some e => do
          let _ ← unwrap (t.get (.named (u32 e.offset)))
          let t := t.modify (.named (u32 e.offset)) fun x => { x with sym := { x.sym with st_value := s1.sizeOnDisk } }
          let s ← if s1.chunks.length = 0 then .error .panic
            else s1.modifyChunk (s1.chunks.length - 1) (·.addSymbol (.named (u32 e.offset)))
          .ok (t, s)
        | none => .ok (t, s1)) = (.ok (t', s') : M (SymbolTable × Section)) ∧ TMoved B t t' ∧ ∀ r, Section.notes r s' ≤ Section.notes r s1 + 1 := by
    intro s1 h1 h2
    cases hb : symstr.get b with
    | none => exact ⟨t, s1, rfl, .refl B t, fun r => by omega⟩
    | some e =>
      obtain ⟨x, hx⟩ := Option.isSome_iff_exists.1 (ht e hb)
      refine ⟨_, _, ?_, TMoved.modify (r := .named (u32 e.offset)) (f := fun x => { x with sym := { x.sym with st_value := s1.sizeOnDisk } }) fun x => ⟨_, x.sym.st_shndx, rfl, .inr h2⟩,
        fun r => notes_modify r (.named (u32 e.offset)) s1 (s1.chunks.length - 1)⟩
      simp only [hx, unwrap, ok_bind]
      rw [if_neg (by omega), modifyChunk_progress (by omega)]
      rfl
  unfold boundSymbols
  cases ha : symstr.get a with
  | none =>
    obtain ⟨t', s', h1, h2, h3⟩ := tail s hc hB
    exact ⟨t', s', h1, h2, fun r => by have := h3 r; omega⟩
  | some e =>
    obtain ⟨t', s', h1, h2, h3⟩ := tail { s with chunks := s.chunks.modify 0 (·.addSymbol (.named (u32 e.offset))) } (by simpa using hc) hB
    refine ⟨t', s', ?_, h2, fun r => ?_⟩
    · simp only []
      rw [modifyChunk_progress hc, ok_bind]
      exact h1
    · have := h3 r
      have := notes_modify r (.named (u32 e.offset)) s 0
      omega

end Dld
