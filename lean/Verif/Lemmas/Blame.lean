import Verif.Spec.Blame
import Verif.Lemmas.Fails
import Verif.Lemmas.Unresolved
/-! # Errors are justified by the inputs -/
namespace Dld
open Writer Spec StringTable SymbolTable

/-- the result is as described by `Q`, the failure as described by `P` -/
def Safe {α : Type} (P : Fail → Prop) (Q : α → Prop) : M α → Prop
  | .ok a => Q a
  | .error e => P e

namespace Safe
variable {α β σ : Type} {P : Fail → Prop}

theorem of_ok {Q : α → Prop} {a : α} (h : Q a) : Safe P Q (.ok a) := h
theorem of_panics {Q : α → Prop} {m : M α} (hm : Panics m) (hP : P .panic) (hQ : ∀ a, m = .ok a → Q a) : Safe P Q m := by
  cases m with
  | error e => show P e; rw [hm e rfl]; exact hP
  | ok a => exact hQ a rfl
theorem bind {Q : α → Prop} {R : β → Prop} {m : M α} {f : α → M β} (hm : Safe P Q m) (hf : ∀ a, m = .ok a → Q a → Safe P R (f a)) : Safe P R (m >>= f) := by
  cases m with
  | error e => exact hm
  | ok a => exact hf a rfl hm
theorem mono {Q R : α → Prop} {m : M α} (hm : Safe P Q m) (h : ∀ a, m = .ok a → Q a → R a) : Safe P R m := by
  cases m with
  | error e => exact hm
  | ok a => exact h a rfl hm
theorem foldM' {I : σ → Prop} {f : σ → α → M σ} : ∀ (l : List α), (∀ a ∈ l, ∀ s, I s → Safe P I (f s a)) → ∀ s, I s → Safe P I (Dld.foldM' f s l)
  | [], _, s, hs => hs
  | a :: l, hf, s, hs => by
    unfold Dld.foldM'
    have h1 := hf a (by simp) s hs
    cases hx : f s a with
    | error e => rw [hx] at h1; exact h1
    | ok s' =>
      rw [hx] at h1
      exact foldM' l (fun b hb => hf b (by simp [hb])) s' h1
/-- the invariant may depend on what has been done already -/
theorem foldPrefix {I : List α → σ → Prop} {f : σ → α → M σ} : ∀ (l done : List α),
    (∀ b a rest, done ++ l = b ++ a :: rest → ∀ s, I b s → Safe P (I (b ++ [a])) (f s a)) → ∀ s, I done s → Safe P (I (done ++ l)) (Dld.foldM' f s l)
  | [], done, _, s, hs => by rw [List.append_nil]; exact hs
  | a :: l, done, hf, s, hs => by
    unfold Dld.foldM'
    have h1 := hf done a l rfl s hs
    cases hx : f s a with
    | error e => rw [hx] at h1; exact h1
    | ok s' =>
      rw [hx] at h1
      have := foldPrefix l (done ++ [a]) (fun b c rest e => hf b c rest (by rw [← e]; simp)) s' h1
      rw [List.append_assoc] at this
      exact this
theorem orErr {o : Option α} {p : Path} {k : ErrKind} {Q : α → Prop} (h : o = none → P (.err p k)) (hQ : ∀ a, o = some a → Q a) :
    Safe P Q (Linker.orErr p k o) := by
  cases o with
  | none => exact h rfl
  | some a => exact hQ a rfl
theorem unwrap {o : Option α} {Q : α → Prop} (h : P .panic) (hQ : ∀ a, o = some a → Q a) : Safe P Q (Dld.unwrap o) := by
  cases o with
  | none => exact h
  | some a => exact hQ a rfl

end Safe

/-! ### Duplicate definitions -/

/-- a fact about the merged symbol that each mention has, and that merging keeps -/
theorem merged_forall {d : Bool} {l : List Add} {t : SymbolTable} {n : Nat} (h : (SymbolTable.new d).addAll l = .ok t) {P : Symbol → Prop}
    (h0 : n = 0 → P (ofAdd nullAdd)) (h1 : ∀ a ∈ l, a.mentions n → P (ofAdd a))
    (h2 : ∀ a ∈ nullAdd :: l, a.mentions n → P (ofAdd a) → ∀ old s, P old → resolve old (ofAdd a) = some s → P s) {s : Symbol}
    (hs : t.get (.named n) = some s) : P s := by
  have hm := mergeAll_of_new h n
  have h1' : ∀ a ∈ mentionsOf n (nullAdd :: l), P (ofAdd a) := by
    intro a ha
    have := mem_mentionsOf.1 ha
    rcases List.mem_cons.1 this.1 with rfl | hm
    · exact h0 this.2.2.symm
    · exact h1 a hm this.2
  exact mergeAll_forall (o := none) (by simp) h1' (fun a ha => by
    have := mem_mentionsOf.1 ha
    exact h2 a this.1 this.2 (h1' a ha)) hm s hs

variable {env : Env} {l : Linker} {opts : Options} {ops : List Op} {w w' : Writer}

/-- the symbols handed to the writer are those of the inputs, and at the places `C` -/
def FromInputs (env : Env) (l : Linker) (C : Path → Bytes → Nat → Prop) (ops : List Op) : Prop :=
  ∀ s sec n path r, Op.sym s sec n path r ∈ ops → ∃ d e j, InputAt env l path d e ∧ e.syms[j]? = some s ∧ e.symName s.st_name = some n ∧ C path d j

variable {C : Path → Bytes → Nat → Prop}

theorem mem_intern_iff {ns : List Name} {n m : Name} : m ∈ intern ns n ↔ m ∈ ns ∨ m = n := by
  have := mem_internAll (ns := ns) (names := [n]) (n := m)
  simpa [internAll] using this


theorem total_eq_sum (ns : List Name) : StringTable.total ns = (ns.map (·.length + 1)).sum := by
  induction ns with
  | nil => rfl
  | cons n ns ih => simp [StringTable.total, ih]

theorem NamesSmall.total (hs : NamesSmall env l) (hf : FromInputs env l C ops) {ns : List Name} (hd : ns.Nodup)
    (hn : ∀ n ∈ ns, n = [] ∨ n ∈ symNames ops ∨ ∃ p d e s, InputAt env l p d e ∧ s ∈ e.syms ∧ e.symName s.st_name = some n) :
    StringTable.total ns < 2 ^ 32 := by
  rw [total_eq_sum]
  refine hs ns hd fun n hm => ?_
  rcases hn n hm with h | h | h
  · exact .inl h
  · have : ∃ s sec path r, Op.sym s sec n path r ∈ ops := by
      clear hf hn
      induction ops with
      | nil => cases h
      | cons op ops ih =>
        cases op with
        | sym s sec m path r =>
          simp only [symNames, List.mem_cons] at h
          rcases h with rfl | h
          · exact ⟨s, sec, path, r, by simp⟩
          · obtain ⟨a, b, c, d, h⟩ := ih h
            exact ⟨a, b, c, d, by simp [h]⟩
        | _ =>
          obtain ⟨a, b, c, d, h⟩ := ih (by simpa [symNames] using h)
          exact ⟨a, b, c, d, by simp [h]⟩
    obtain ⟨s, sec, path, r, hop⟩ := this
    obtain ⟨d, e, j, h1, h2, h3, _⟩ := hf _ _ _ _ _ hop
    exact .inr ⟨_, d, e, s, h1, List.mem_of_getElem? h2, h3⟩
  · exact .inr h

/-- what the duplicate definition error means -/
theorem duplicate_blame (h : Hist l.options ops w) (hf : FromInputs env l C ops) {p : Path} {d : Bytes} {e : ElfFile} {j : Nat} {s : Sym} {n : Name}
    (hi : InputAt env l p d e) (hs : e.syms[j]? = some s) (hC : ∀ p' d' j', C p' d' j' → OtherSym l p' d' j' p d j) (hn : e.symName s.st_name = some n) {ref : Path}
    (he : w.symtab.addSymbol { s with st_name := u32 (w.symstr.getOrCreate n).1.offset } (elfHash n) (elfGnuHash n) p = .error ref) :
    Blame env l p (.alreadyDefined n ref) := by
  simp only [SymbolTable.addSymbol] at he
  split at he
  · cases he
  · next h3 =>
    split at he
    · next old hold =>
      split at he
      · next hr =>
        cases he
        have hr' : stBind old.sym.st_info = 1 ∧ stBind s.st_info = 1 ∧ old.sym.st_shndx ≠ 0 ∧ s.st_shndx ≠ 0 := by
          unfold resolve at hr
          split at hr
          · next hc =>
            have e0 : SHN_UNDEF = 0 := rfl
            have e1 : STB_GLOBAL = 1 := rfl
            simp only [Symbol.isGlobal, e0, e1, Bool.and_eq_true, beq_iff_eq, bne_iff_ne] at hc
            exact ⟨hc.1.1.1, hc.1.1.2, hc.1.2, hc.2⟩
          · split at hr
            · cases hr
            · split at hr <;> cases hr
        obtain ⟨g1, g2, g3, g4⟩ := hr'
        -- the mentions of the entry
        have key : NamesSmall env l → ∃ ns, (SymbolTable.new false).addAll (symAdds ns ops) = .ok (w.symtab.mapSyms undyn) ∧
            ∀ a ∈ symAdds ns ops, a.mentions (u32 (w.symstr.getOrCreate n).1.offset) → ∃ s' p' d' j', InputSym env l p' d' j' s' n ∧ OtherSym l p' d' j' p d j ∧
              s'.st_shndx = a.sym.st_shndx ∧ s'.st_info = a.sym.st_info ∧ a.ref = p' := by
          intro hsm
          obtain ⟨ns, nd, T⟩ := h.tableFacts
          refine ⟨ns, T.inv.sym, fun a ha hm => ?_⟩
          have hH := T.symstr.getOrCreate n
          have hoff : (w.symstr.getOrCreate n).1.offset = nameOff (intern ns n) n := Holds.offset T.symstr (List.prefix_refl _)
          have hpre : ns <+: intern ns n := by
            unfold intern; split
            · exact List.prefix_refl _
            · exact ⟨_, rfl⟩
          have htot : (w.symstr.getOrCreate n).2.totalLen < 2 ^ 32 := by
            rw [hH.total]
            refine hsm.total hf hH.nodup fun m hm => ?_
            rcases mem_intern_iff.1 hm with hm | hm
            · rcases (T.symNames m).1 hm with hm | hm
              · exact .inl hm
              · exact .inr (.inl hm)
            · subst hm
              exact .inr (.inr ⟨_, _, _, _, hi, List.mem_of_getElem? hs, hn⟩)
          obtain ⟨s', sec, m, path, r, hop, rfl⟩ := mem_symAdds ha
          have hmns : m ∈ ns := (T.symNames m).2 (.inr (mem_symNames hop))
          have : m = n := by
            refine u32_nameOff_inj hH htot (hpre.subset hmns) (mem_intern ns n) ?_
            rw [nameOff_prefix hpre hmns, ← hoff]
            exact hm.2
          subst this
          obtain ⟨d', e', j', i1, i2, i3, i4⟩ := hf _ _ _ _ _ hop
          exact ⟨s', path, d', j', ⟨e', i1, i2, i3, hm.1⟩, hC _ _ _ i4, rfl, rfl, rfl⟩
        have hget : (w.symtab.mapSyms undyn).get (.named (u32 (w.symstr.getOrCreate n).1.offset)) = some (undyn old) := by
          rw [get_mapSyms]; simp only [SymbolTable.get, hold]; rfl
        refine .duplicate ⟨e, hi, hs, hn, h3⟩ g2 g4 (fun hsm => ?_) (fun hsm => ?_) (fun hsm hne => ?_)
        · obtain ⟨ns, hadd, hk⟩ := key hsm
          have := merged_forall hadd (P := fun x => x.sym.st_shndx ≠ 0 → ∃ p' d' j' s', InputSym env l p' d' j' s' n ∧ OtherSym l p' d' j' p d j ∧ s'.st_shndx ≠ 0)
            (fun _ h => absurd rfl h) (fun a ha hm h => by
              obtain ⟨s', p', d', j', i, o, j, _⟩ := hk a ha hm
              exact ⟨p', d', j', s', i, o, by rw [j]; exact h⟩)
            (fun a _ _ hP old' s' ho hr h => by
              rcases resolve_cases hr with ⟨_, _, h2⟩ | ⟨_, _, h2⟩
              · exact hP (h2 ▸ h)
              · rw [h2] at h
                split at h
                · exact hP h
                · exact ho h) hget
          exact this g3
        · obtain ⟨ns, hadd, hk⟩ := key hsm
          have := merged_forall hadd (P := fun x => stBind x.sym.st_info = 1 → ∃ p' d' j' s', InputSym env l p' d' j' s' n ∧ OtherSym l p' d' j' p d j ∧ s'.st_info / 16 = 1)
            (fun _ h => absurd h (by decide)) (fun a ha hm h => by
              obtain ⟨s', p', d', j', i, o, _, j, _⟩ := hk a ha hm
              exact ⟨p', d', j', s', i, o, by rw [j]; exact h⟩)
            (fun a _ _ hP old' s' ho hr h => by
              rcases resolve_cases hr with ⟨_, h2, _⟩ | ⟨_, h2, _⟩
              · exact hP (h2 ▸ h)
              · exact ho (h2 ▸ h)) hget
          exact this g1
        · obtain ⟨ns, hadd, hk⟩ := key hsm
          refine merged_forall (s := undyn old) hadd (P := fun x => ∃ d' j' s', InputSym env l x.reference d' j' s' n ∧ OtherSym l x.reference d' j' p d j) (fun h0 => ?_) (fun a ha hm => by
              obtain ⟨s', p', d', j', i, o, _, _, j⟩ := hk a ha hm
              have e : (ofAdd a).reference = p' := j
              rw [e]
              exact ⟨d', j', s', i, o⟩) (fun a _ _ _ old' s' ho hr => ?_) hget
          · exfalso
            obtain ⟨ns, nd, T⟩ := h.tableFacts
            have hH := T.symstr.getOrCreate n
            have hoff : (w.symstr.getOrCreate n).1.offset = nameOff (intern ns n) n := Holds.offset T.symstr (List.prefix_refl _)
            have htot : (w.symstr.getOrCreate n).2.totalLen < 2 ^ 32 := by
              rw [hH.total]
              refine hsm.total hf hH.nodup fun m hm => ?_
              rcases mem_intern_iff.1 hm with hm | hm
              · rcases (T.symNames m).1 hm with hm | hm
                · exact .inl hm
                · exact .inr (.inl hm)
              · subst hm
                exact .inr (.inr ⟨_, _, _, _, hi, List.mem_of_getElem? hs, hn⟩)
            have hnil : [] ∈ intern ns n := mem_intern_iff.2 (.inl ((T.symNames []).2 (.inl rfl)))
            refine hne (u32_nameOff_inj hH htot (mem_intern ns n) hnil ?_)
            rw [← hoff, h0, nameOff_nil hH.head]; rfl
          · have : s'.reference = old'.reference := by
              unfold resolve at hr
              split at hr
              · cases hr
              · split at hr
                · cases hr; rfl
                · split at hr <;> cases hr <;> rfl
            rw [this]; exact ho
      · cases he
    · cases he

/-! ### The driver -/

/-- panics, and errors that the inputs justify -/
def Fault (env : Env) (l : Linker) (f : Fail) : Prop := f = .panic ∨ ∃ p k, f = .err p k ∧ Blame env l p k

/-- the writer has received symbols of the inputs only -/
def Fed (env : Env) (l : Linker) (C : Path → Bytes → Nat → Prop) (w : Writer) : Prop := ∃ ops, Hist l.options ops w ∧ FromInputs env l C ops

theorem Fed.mono {C' : Path → Bytes → Nat → Prop} (h : Fed env l C w) (hc : ∀ p d j, C p d j → C' p d j) : Fed env l C' w := by
  obtain ⟨ops, h1, h2⟩ := h
  refine ⟨ops, h1, fun s sec n path r hm => ?_⟩
  obtain ⟨d, e, j, i1, i2, i3, i4⟩ := h2 _ _ _ _ _ hm
  exact ⟨d, e, j, i1, i2, i3, hc _ _ _ i4⟩

theorem Fed.step (h : Fed env l C w) {op : Op} (hs : Step w op w')
    (hop : ∀ s sec n path r, op = Op.sym s sec n path r → ∃ d e j, InputAt env l path d e ∧ e.syms[j]? = some s ∧ e.symName s.st_name = some n ∧ C path d j) : Fed env l C w' := by
  obtain ⟨ops, h1, h2⟩ := h
  refine ⟨ops ++ [op], h1.step hs, ?_⟩
  intro s sec n path r hm
  rcases List.mem_append.1 hm with hm | hm
  · exact h2 _ _ _ _ _ hm
  · exact hop _ _ _ _ _ (List.mem_singleton.1 hm).symm

theorem Fault.panic : Fault env l .panic := .inl rfl
theorem Fault.err {p : Path} {k : ErrKind} (h : Blame env l p k) : Fault env l (.err p k) := .inr ⟨p, k, rfl, h⟩

namespace Linker
variable {p : Path} {d : Bytes} {e : ElfFile}

/-- the object being processed is that file -/
structure Processing (env : Env) (l : Linker) (C : Path → Bytes → Nat → Prop) (p : Path) (d : Bytes) (e : ElfFile) (o : Obj) (w : Writer) : Prop where
  path : o.path = p
  data : o.data = d
  elf : o.elf = e
  fed : Fed env l C w

theorem sectionData_panics (d : Bytes) (sh : SectionHeader) : Panics (sectionData d sh) := by unfold sectionData; panics
theorem pushSection_panics (w : Writer) (n : Name) (sh : SectionHeader) (d : Option Bytes) : Panics (w.pushSection n sh d) := by
  unfold Writer.pushSection; panics
theorem modChunk_panics (w : Writer) (r : SectionRef) (f : Chunk → Chunk) : Panics (w.modChunk r f) := by unfold Writer.modChunk; panics
macro_rules | `(tactic| panics_step) => `(tactic| with_reducible apply modChunk_panics)
theorem noteSymbol_panics (w : Writer) (s : Sym) (c : Option SectionRef) (r : SymbolRef) : Panics (w.noteSymbol s c r) := by
  unfold Writer.noteSymbol; panics

theorem processSections_safe (hi : InputAt env l p d e) {o : Obj} (h : Processing env l C p d e o w) :
    Safe (Fault env l) (fun (st : Obj × Writer) => Processing env l C p d e st.1 st.2) (processSections o w) := by
  unfold processSections
  refine Safe.foldM' (I := fun (st : Obj × Writer) => Processing env l C p d e st.1 st.2) _ ?_ _ h
  rintro ⟨sh, i⟩ hm ⟨o', w1⟩ hI
  have hsh : sh ∈ e.sectionHeaders := by
    have := List.mem_zipIdx_iff_getElem?.1 hm
    rw [← h.elf]
    exact List.mem_of_getElem? this
  simp only [processSection]
  split
  · exact hI
  · next ht =>
    refine Safe.bind (Q := fun _ => True) (Safe.orErr (fun hn => ?_) fun _ _ => trivial) fun name hname _ => ?_
    · rw [hI.path]
      exact .err (.sectionName hi hsh (by exact fun hm => ht (mem_skipped.2 hm)) (by rw [← hI.elf]; exact hn))
    · refine Safe.bind (Q := fun _ => True) (Safe.of_panics (sectionData_panics _ _) .panic fun _ _ => trivial) fun data _ _ => ?_
      refine Safe.bind (Q := fun x => Fed env l C x.1) (Safe.of_panics (pushSection_panics _ _ _ _) .panic fun x hx => ?_) fun x _ hx => ?_
      · exact hI.fed.step (.push hx) (by rintro _ _ _ _ _ ⟨⟩)
      · exact ⟨hI.path, hI.data, hI.elf, hx⟩

theorem processSymbols_safe (hi : InputAt env l p d e) {o : Obj} (h : Processing env l C p d e o w)
    (hC : ∀ j, C p d j → ¬ l.objects.Nodup ∨ p ∈ l.archives) :
    Safe (Fault env l) (fun (st : Obj × Writer) => Processing env l (fun p' d' j => C p' d' j ∨ (p' = p ∧ d' = d)) p d e st.1 st.2) (processSymbols o w) := by
  unfold processSymbols
  have key := Safe.foldPrefix (P := Fault env l)
    (I := fun done (st : Obj × Writer) => Processing env l (fun p' d' j => C p' d' j ∨ (p' = p ∧ d' = d ∧ j < done.length)) p d e st.1 st.2)
    (f := processSymbol) o.elf.syms [] ?_ (o, w) ⟨h.path, h.data, h.elf, h.fed.mono fun _ _ _ h => .inl h⟩
  · refine key.mono fun st _ hst => ⟨hst.path, hst.data, hst.elf, hst.fed.mono fun p' d' j hh => ?_⟩
    rcases hh with hh | hh
    · exact .inl hh
    · exact .inr ⟨hh.1, hh.2.1⟩
  rintro done s rest hl ⟨o', w1⟩ hI
  rw [h.elf] at hl
  rw [List.nil_append] at hl
  have hj : e.syms[done.length]? = some s := by rw [hl]; simp
  simp only [processSymbol]
  refine Safe.bind (Q := fun n => e.symName s.st_name = some n) (Safe.orErr (fun hn => ?_) fun n hn => ?_) fun name _ hname => ?_
  · rw [hI.path]
    exact .err (.symbolName hi (List.mem_of_getElem? hj) (by rw [← hI.elf]; exact hn))
  · rw [← hI.elf]; exact hn
  · refine Safe.bind (Q := fun x => Fed env l (fun p' d' j => C p' d' j ∨ (p' = p ∧ d' = d ∧ j < (done ++ [s]).length)) x.1) ?_
      fun x _ hx => ⟨hI.path, hI.data, hI.elf, hx⟩
    rw [hI.path]
    have hgood : ∀ x, w1.addSymbol s (AMap.get? o'.sectionRelocations s.st_shndx) name p = .ok x →
        Fed env l (fun p' d' j => C p' d' j ∨ (p' = p ∧ d' = d ∧ j < (done ++ [s]).length)) x.1 := by
      intro x hx
      refine (hI.fed.mono fun p' d' j hh => ?_).step (.sym hx) ?_
      · rcases hh with hh | hh
        · exact .inl hh
        · exact .inr ⟨hh.1, hh.2.1, by rw [List.length_append]; simp; omega⟩
      · rintro _ _ _ _ _ ⟨⟩
        exact ⟨d, e, done.length, hi, hj, hname, .inr ⟨rfl, rfl, by simp⟩⟩
    cases ha : w1.addSymbol s (AMap.get? o'.sectionRelocations s.st_shndx) name p with
    | ok x => exact hgood x ha
    | error f =>
      show Fault env l f
      simp only [Writer.addSymbol] at ha
      split at ha
      · next old hold =>
        cases ha
        obtain ⟨ops, h1, h2⟩ := hI.fed
        refine .err (duplicate_blame h1 h2 hi hj ?_ hname hold)
        intro p' d' j' hh
        unfold OtherSym
        by_cases hpp : p' = p
        · by_cases hdd : d' = d
          · rcases hh with hh | hh
            · subst hpp; subst hdd
              exact .inr (.inr (.inr (hC _ hh)))
            · exact .inr (.inr (.inl (by omega)))
          · exact .inr (.inl hdd)
        · exact .inl hpp
      · next t r _ =>
        have : Panics (do let w ← noteSymbol { w1 with symstr := (w1.symstr.getOrCreate name).2, symtab := t }
                            { s with st_name := u32 (w1.symstr.getOrCreate name).1.offset } (AMap.get? o'.sectionRelocations s.st_shndx) r
                          Except.ok (w, r) : M (Writer × SymbolRef)) :=
          Panics.bind (noteSymbol_panics _ _ _ _) fun _ => Panics.ok _
        rw [this f ha]
        exact .panic

theorem relocInfo (a b : Nat) : r_type (a * 2 ^ 32 + b) = b % 2 ^ 32 := by
  unfold r_type; omega

theorem processRelocations_safe (hi : InputAt env l p d e) {o : Obj} (h : Processing env l C p d e o w) :
    Safe (Fault env l) (Fed env l C) (processRelocations o w) := by
  unfold processRelocations
  refine Safe.foldM' (I := Fed env l C) _ ?_ _ h.fed
  rintro ⟨pos, rs⟩ hm w1 hI
  refine Safe.foldM' (I := Fed env l C) _ ?_ _ hI
  intro rel hr w2 hI
  simp only [processReloc]
  split
  · exact hI
  · refine Safe.bind (Q := fun _ => True) (Safe.unwrap .panic fun _ _ => trivial) fun s _ _ => ?_
    split
    · exact Fault.panic
    · split
      · exact hI
      · split
        · exact hI
        · next _ sr _ _ r _ =>
          rw [h.path]
          cases ha : w2.addRelocation { r_offset := rel.r_offset, r_info := rel.r_sym * 2 ^ 32 + rel.r_type, r_addend := rel.r_addend.getD 0 } r sr p with
          | ok w3 => exact hI.step (.reloc ha) (by rintro _ _ _ _ _ ⟨⟩)
          | error f =>
            show Fault env l f
            simp only [Writer.addRelocation] at ha
            split at ha
            · next ht =>
              cases ha
              rw [relocInfo] at ht ⊢
              have hmem : ∃ k j, (k, pos, j, rel) ∈ e.relocs := by
                rw [h.elf] at hm
                obtain ⟨k, hk⟩ := List.getElem?_of_mem hm
                obtain ⟨j, hj⟩ := List.getElem?_of_mem hr
                refine ⟨k, j, ?_⟩
                unfold ElfFile.relocs
                rw [List.mem_flatMap]
                exact ⟨((pos, rs), k), List.mem_zipIdx_iff_getElem?.2 hk, List.mem_map.2 ⟨(rel, j), List.mem_zipIdx_iff_getElem?.2 hj, rfl⟩⟩
              obtain ⟨k, j, hmem⟩ := hmem
              refine .err (.reloc hi hmem rfl ?_)
              have : R_X86_64_8 = 14 ∧ R_X86_64_16 = 12 ∧ R_X86_64_PC16 = 13 ∧ R_X86_64_PC8 = 15 := ⟨rfl, rfl, rfl, rfl⟩
              simp only [this.1, this.2.1, this.2.2.1, this.2.2.2] at ht
              rcases ht with ht | ht | ht | ht <;> rw [ht] <;> decide
            · rw [modChunk_panics _ _ _ f ha]
              exact .panic

theorem matchDynsym_safe {name : Name} (hp : p ∈ l.options.sharedLibs.map (·.1)) (hd : env.read p = some d) (he : env.parseElf d = some e)
    {s : Sym} (hs : s ∈ e.dynsyms) {st : Writer × Bool} (h : Fed env l C st.1) :
    Safe (Fault env l) (fun (st : Writer × Bool) => Fed env l C st.1) (matchDynsym e p name st s) := by
  unfold matchDynsym
  refine Safe.bind (Q := fun _ => True) (Safe.orErr (fun hn => .err (.dynName hp hd he hs hn)) fun _ _ => trivial) fun inner _ _ => ?_
  split
  · refine Safe.bind (Q := fun x => Fed env l C x.1) ?_ fun x _ hx => ?_
    · cases ha : st.1.addDynSymbol s inner p with
      | ok x => exact h.step (.dynsym ha) (by rintro _ _ _ _ _ ⟨⟩)
      | error f =>
        show Fault env l f
        simp only [Writer.addDynSymbol] at ha
        split at ha
        · next old hold =>
          exfalso
          simp only [SymbolTable.addSymbol] at hold
          split at hold
          · cases hold
          · split at hold
            · split at hold
              · next hr =>
                unfold resolve at hr
                split at hr
                · next hc =>
                  simp [SHN_UNDEF] at hc
                · split at hr
                  · cases hr
                  · split at hr <;> cases hr
              · cases hold
            · cases hold
        · split at ha
          · cases ha
          · split at ha
            · cases ha; exact .panic
            · cases ha
    · refine Safe.bind (Q := fun _ => True) (Safe.unwrap .panic fun _ _ => trivial) fun f _ _ => ?_
      exact Fed.step (op := .needed f) hx .needed (by rintro _ _ _ _ _ ⟨⟩)
  · exact h

theorem symbolName_panics (w : Writer) (r : SymbolRef) : Panics (w.symbolName r) := by
  cases r <;> unfold Writer.symbolName <;> panics

theorem findInLibs_safe {order : Nat → List SymbolRef → List SymbolRef} {und : List SymbolRef} (h : Fed env l C w) :
    Safe (Fault env l) (fun (st : Writer × List SymbolRef) => Fed env l C st.1) (findInLibs env l order und w) := by
  unfold findInLibs
  refine Safe.foldM' (I := fun (st : Writer × List SymbolRef) => Fed env l C st.1) _ ?_ _ h
  rintro ⟨p, i⟩ hm ⟨w1, und1⟩ hI
  have hp : p ∈ l.options.sharedLibs.map (·.1) := List.mem_of_getElem? (List.mem_zipIdx_iff_getElem?.1 hm)
  unfold searchLib
  refine Safe.bind (Q := fun d => env.read p = some d) (Safe.orErr (fun hn => .err (.unreadable (.inr (.inl hp)) hn)) fun _ h => h) fun d _ hd => ?_
  refine Safe.bind (Q := fun e => env.parseElf d = some e) (Safe.unwrap .panic fun _ h => h) fun e _ he => ?_
  refine Safe.bind (Q := fun (st : Writer × List SymbolRef) => Fed env l C st.1) ?_ fun st _ hst => hst
  refine Safe.foldM' (I := fun (st : Writer × List SymbolRef) => Fed env l C st.1) _ ?_ _ hI
  intro r _ st hI
  unfold searchLibEntry
  refine Safe.bind (Q := fun _ => True) (Safe.of_panics (symbolName_panics _ _) .panic fun _ _ => trivial) fun o _ _ => ?_
  cases o with
  | none => exact hI
  | some name =>
    refine Safe.bind (Q := fun (st : Writer × Bool) => Fed env l C st.1) ?_ fun st _ hst => hst
    exact Safe.foldM' (I := fun (st : Writer × Bool) => Fed env l C st.1) _ (fun s hs st hI => matchDynsym_safe hp hd he hs hI) _ hI

theorem linkMember_safe {data : Bytes} {ar : ArFile} {n : Name} {m : Bytes} (hp : p ∈ l.archives) (hd : env.read p = some data)
    (ha : env.parseAr data = some ar) (hn : ar.memberOfSymbol n = some m) (h : Fed env l (fun _ _ _ => True) w) :
    Safe (Fault env l) (Fed env l (fun _ _ _ => True)) (linkMember env p ar w m) := by
  unfold linkMember
  refine Safe.bind (Q := fun d => ar.get m = some d) (Safe.unwrap .panic fun _ h => h) fun d _ hm => ?_
  refine Safe.bind (Q := fun o => ∀ o', o = some o' → ∃ e, env.parseElf d = some e ∧ e.isObjectFile = true ∧ o' = { path := p, data := d, elf := e }) ?_ fun o _ ho => ?_
  · unfold toElfObject
    refine Safe.bind (Q := fun e => env.parseElf d = some e) (Safe.orErr (fun he => .err (.member hp hd ha hn hm he)) fun _ h => h) fun e _ he => ?_
    intro o' ho'
    split at ho'
    · next hob => cases ho'; exact ⟨e, he, hob, rfl⟩
    · cases ho'
  · refine Safe.bind (Q := fun o' => o = some o') (Safe.unwrap .panic fun _ h => h) fun o' _ hoo => ?_
    obtain ⟨e, he, hob, rfl⟩ := ho o' hoo
    have hi : InputAt env l p d e := .member hp hd ha hn hm he hob
    refine Safe.bind (processSections_safe hi ⟨rfl, rfl, rfl, h⟩) fun st _ hst => ?_
    refine Safe.bind (processSymbols_safe hi hst fun _ _ => .inr hp) fun st _ hst => ?_
    exact (processRelocations_safe hi hst).mono fun _ _ h => h.mono fun _ _ _ _ => trivial

theorem processArchives_safe {sched : LinkSched} (hv : sched.Valid) {round : Nat} {und : List SymbolRef} (h : Fed env l (fun _ _ _ => True) w) :
    Safe (Fault env l) (fun (st : Writer × List SymbolRef) => Fed env l (fun _ _ _ => True) st.1) (processArchives env l sched round und w) := by
  unfold processArchives
  refine Safe.foldM' (I := fun (st : Writer × List SymbolRef) => Fed env l (fun _ _ _ => True) st.1) _ ?_ _ h
  rintro ⟨p, i⟩ hm ⟨w1, und1⟩ hI
  have hp : p ∈ l.archives := (hv.archives _).mem_iff.1 (List.mem_of_getElem? (List.mem_zipIdx_iff_getElem?.1 hm))
  unfold searchArchive
  refine Safe.bind (Q := fun d => env.read p = some d) (Safe.orErr (fun hn => .err (.unreadable (.inr (.inr hp)) hn)) fun _ h => h) fun d _ hd => ?_
  refine Safe.bind (Q := fun e => env.parseAr d = some e) (Safe.orErr (fun hn => .err (.archive hp hd hn)) fun _ h => h) fun ar _ ha => ?_
  refine Safe.bind (Q := fun (st : List SymbolRef × List Bytes) => ∀ m ∈ st.2, ∃ n, ar.memberOfSymbol n = some m) ?_ fun st _ hst => ?_
  · refine Safe.foldM' (I := fun (st : List SymbolRef × List Bytes) => ∀ m ∈ st.2, ∃ n, ar.memberOfSymbol n = some m) _ ?_ _ (by simp)
    intro r _ st hI
    unfold searchArEntry
    refine Safe.bind (Q := fun _ => True) (Safe.of_panics (symbolName_panics _ _) .panic fun _ _ => trivial) fun o _ _ => ?_
    cases o with
    | none => exact hI
    | some name =>
      simp only []
      split
      · exact hI
      · next m hm =>
        intro m' hm'
        simp only at hm'
        split at hm'
        · exact hI m' hm'
        · rcases List.mem_append.1 hm' with h | h
          · exact hI m' h
          · exact ⟨name, by rw [List.mem_singleton.1 h]; exact hm⟩
  · refine Safe.bind (Q := Fed env l (fun _ _ _ => True)) ?_ fun w _ hw => hw
    refine Safe.foldM' (I := Fed env l (fun _ _ _ => True)) _ ?_ _ hI
    intro m hm w hw
    obtain ⟨n, hn⟩ := hst m ((hv.members _ _ _).mem_iff.1 hm)
    exact linkMember_safe hp hd ha hn hw

theorem resolveLoop_safe {sched : LinkSched} (hv : sched.Valid) : ∀ (fuel round : Nat) (und : List SymbolRef) (w : Writer), Fed env l (fun _ _ _ => True) w →
    ∀ r, resolveLoop env l sched fuel round und w = some r → Safe (Fault env l) (Fed env l (fun _ _ _ => True)) r
  | 0, _, _, _, _, r, hr => by simp [resolveLoop] at hr
  | fuel + 1, round, und, w, h, r, hr => by
    have hs : Safe (Fault env l) (fun (st : Writer × Nat) => Fed env l (fun _ _ _ => True) st.1) (resolveRound env l sched round und w) := by
      unfold resolveRound
      refine Safe.bind (findInLibs_safe h) fun st _ hst => ?_
      refine Safe.bind (processArchives_safe hv hst) fun st _ hst => hst
    unfold resolveLoop at hr
    cases hx : resolveRound env l sched round und w with
    | error f =>
      rw [hx] at hr hs
      cases hr
      exact hs
    | ok x =>
      rw [hx] at hr hs
      simp only [] at hr
      split at hr
      · cases hr; exact hs
      · exact resolveLoop_safe hv fuel _ _ _ hs r hr

theorem readAll_safe : ∀ (ps : List Path), (∀ p ∈ ps, p ∈ l.objects) →
    Safe (Fault env l) (fun r => r.map (·.1) = ps ∧ ∀ x ∈ r, x.1 ∈ l.objects ∧ env.read x.1 = some x.2) (readAll env ps)
  | [], _ => ⟨rfl, by intro x hx; cases hx⟩
  | p :: ps, h => by
    unfold readAll
    refine Safe.bind (Q := fun d => env.read p = some d) (Safe.orErr (fun hn => .err (.unreadable (.inl (h p (by simp))) hn)) fun _ h => h) fun d _ hd => ?_
    refine Safe.bind (readAll_safe ps fun q hq => h q (by simp [hq])) fun r _ hr => ⟨by simp [hr.1], ?_⟩
    intro x hx
    rcases List.mem_cons.1 hx with rfl | hx
    · exact ⟨h p (by simp), hd⟩
    · exact hr.2 x hx

theorem loadAll_safe (h : Fed env l (fun _ _ _ => False) w) : Safe (Fault env l) (Fed env l (fun _ _ _ => True)) (loadAll env l w) := by
  unfold loadAll
  refine Safe.bind (readAll_safe _ fun _ h => h) fun r _ hr => ?_
  refine Safe.bind (Q := fun (st : List Obj × Writer) => Fed env l (fun _ _ _ => False) st.2 ∧ (∀ o ∈ st.1, InputAt env l o.path o.data o.elf) ∧
    (st.1.map (·.path)).Sublist l.objects) ?_ fun st _ hst => ?_
  · have := Safe.foldPrefix (P := Fault env l) (I := fun done (st : List Obj × Writer) => Fed env l (fun _ _ _ => False) st.2 ∧
      (∀ o ∈ st.1, InputAt env l o.path o.data o.elf) ∧ (st.1.map (·.path)).Sublist (done.map (·.1))) (f := loadObjects env) r [] ?_ ([], w)
      ⟨h, by simp, List.Sublist.refl _⟩
    · rw [List.nil_append, hr.1] at this
      exact this
    rintro done ⟨p, d⟩ rest hl ⟨os, w1⟩ ⟨hI, ho, hsub⟩
    rw [List.nil_append] at hl
    obtain ⟨hp, hd⟩ := hr.2 (p, d) (by rw [hl]; simp)
    have hsub' : (os.map (·.path)).Sublist ((done ++ [(p, d)]).map (·.1)) := by
      rw [List.map_append]
      exact hsub.trans (List.sublist_append_left _ _)
    unfold loadObjects
    refine Safe.bind (Q := fun o => ∀ o', o = some o' → ∃ e, InputAt env l p d e ∧ o' = { path := p, data := d, elf := e }) ?_ fun o _ hoo => ?_
    · unfold toElfObject
      refine Safe.bind (Q := fun e => env.parseElf d = some e) (Safe.orErr (fun he => .err (.object hp hd he)) fun _ h => h) fun e _ he => ?_
      intro o' ho'
      split at ho'
      · next hob => cases ho'; exact ⟨e, .object hp hd he hob, rfl⟩
      · cases ho'
    · cases o with
      | none => exact ⟨hI, ho, hsub'⟩
      | some o' =>
        obtain ⟨e, hi, rfl⟩ := hoo o' rfl
        refine Safe.bind (processSections_safe hi ⟨rfl, rfl, rfl, hI⟩) fun st _ hst => ⟨hst.fed, ?_, ?_⟩
        · intro o hm
          rcases List.mem_append.1 hm with hm | hm
          · exact ho o hm
          · rw [List.mem_singleton.1 hm, hst.path, hst.data, hst.elf]; exact hi
        · show ((os ++ [st.1]).map (·.path)).Sublist _
          rw [List.map_append, List.map_append]
          refine hsub.append ?_
          simp [hst.path]
  · have := Safe.foldPrefix (P := Fault env l) (I := fun (done : List Obj) w => Fed env l (fun p _ _ => p ∈ done.map (·.path)) w)
      (f := loadSymbols) st.1 [] ?_ st.2 (hst.1.mono fun _ _ _ h => h.elim)
    · exact this.mono fun _ _ h => h.mono fun _ _ _ _ => trivial
    intro done o rest hl w hw
    rw [List.nil_append] at hl
    unfold loadSymbols
    have hi := hst.2.1 o (by rw [hl]; simp)
    refine Safe.bind (processSymbols_safe hi ⟨rfl, rfl, rfl, hw⟩ fun j hj => .inl fun hnd => ?_) fun st' _ hst' => ?_
    · have := hst.2.2.nodup hnd
      rw [hl, List.map_append, List.map_cons, List.nodup_append] at this
      exact this.2.2 _ hj _ (by simp) rfl
    · refine (processRelocations_safe hi hst').mono fun _ _ h => h.mono fun p' d' j hh => ?_
      rw [List.map_append]
      rcases hh with hh | hh
      · exact List.mem_append_left _ hh
      · rw [hh.1]; exact List.mem_append_right _ (by simp)

theorem new_panics (o : Options) : Panics (Writer.new o) := by
  unfold Writer.new
  refine Panics.bind (Panics.unwrap _) fun _ => Panics.ok _

theorem gathered_safe {sched : LinkSched} (hv : sched.Valid) {fuel : Nat} {r : M Writer} (h : gathered env l sched fuel = some r) :
    Safe (Fault env l) (Fed env l fun _ _ _ => True) r := by
  unfold gathered at h
  cases h0 : Writer.new l.options with
  | error f => rw [h0] at h; cases h; show Fault env l f; rw [new_panics _ f h0]; exact .panic
  | ok w =>
    rw [h0] at h
    simp only [] at h
    have hw : Fed env l (fun _ _ _ => False) w := ⟨[], .init h0, by rintro _ _ _ _ _ ⟨⟩⟩
    have hs := loadAll_safe hw
    cases h1 : loadAll env l w with
    | error f => rw [h1] at h hs; cases h; exact hs
    | ok w1 =>
      rw [h1] at h hs
      exact resolveLoop_safe hv _ _ _ _ hs r h

theorem undefinedNames_panics (w : Writer) : ∀ l : List SymbolRef, Panics (undefinedNames w l)
  | [] => Panics.ok _
  | r :: rs => by
    unfold undefinedNames
    exact Panics.bind (symbolName_panics _ _) fun _ => Panics.bind (undefinedNames_panics w rs) fun _ => Panics.ok _

/-- the errors of the last part of a link -/
theorem finish_error {sched : LinkSched} {f : Fail} (h : finish l sched w = .error f) : f = .panic ∨
    ∃ w' names, w.computeSections sched.toSched = .ok w' ∧ w'.undefinedSymbols sched.symIter ≠ [] ∧
      undefinedNames w' (w'.undefinedSymbols sched.symIter) = .ok names ∧ f = .err l.options.output (.undefined names) := by
  unfold finish at h
  cases hc : w.computeSections sched.toSched with
  | error e => rw [hc] at h; cases h; exact .inl (computeSections_panics _ _ _ hc)
  | ok w' =>
    rw [hc] at h
    simp only [ok_bind] at h
    split at h
    · next hu =>
      cases hn : undefinedNames w' (w'.undefinedSymbols sched.symIter) with
      | error e => rw [hn] at h; cases h; exact .inl (undefinedNames_panics _ _ _ hn)
      | ok names => rw [hn] at h; cases h; exact .inr ⟨w', names, rfl, hu, hn, rfl⟩
    · cases hw : w'.writeToDisk sched.toSched with
      | error e => rw [hw] at h; cases h; exact .inl (writeToDisk_panics _ _ _ hw)
      | ok x => rw [hw] at h; cases h

end Linker
end Dld
