import Verif.Lemmas.Blame
import Verif.Lemmas.Terminates
import Verif.Spec.CompleteAr
/-! # No member of an archive is linked twice -/
namespace Dld
open Writer Spec StringTable SymbolTable

variable {env : Env} {l : Linker} {w w' w0 : Writer} {ops : List Op} {C : Path → Bytes → Nat → Prop}

/-- not an error about a second definition -/
def Undup (f : Fail) : Prop := ∀ p n ref, f ≠ .err p (.alreadyDefined n ref)

theorem Undup.panic : Undup .panic := nofun
theorem Undup.input {p : Path} : Undup (.err p .input) := nofun
theorem Undup.strtab {p : Path} : Undup (.err p .strtab) := nofun
theorem Undup.reloc {p : Path} {t : Nat} : Undup (.err p (.nonAbiReloc t)) := nofun

theorem resolve_global {old new s : Symbol} (h : resolve old new = some s) (hb : stBind new.sym.st_info = 1) (h0 : new.sym.st_shndx ≠ 0) :
    6 ≤ symRank (some s) := by
  have hd := resolve_dynamic h
  simp only [symRank]
  split
  · omega
  · rcases resolve_cases h with ⟨_, h1, h2⟩ | ⟨hc, h1, h2⟩
    · rw [h1, h2, hb, if_neg h0]; decide
    · have : bindRank (stBind old.sym.st_info) = 2 := by
        unfold bindRank
        split
        · next e => exact absurd (.inl ⟨e, .inl hb⟩) hc
        · split
          · next e => exact absurd (.inr ⟨e, hb⟩) hc
          · rfl
      rw [h1, this, h2]
      by_cases ho : old.sym.st_shndx = 0
      · rw [if_pos ho, if_neg h0]; decide
      · rw [if_neg ho, if_neg ho]; decide

theorem SymbolTable.addSymbol_global {t t' : SymbolTable} {s : Sym} {h g : UInt32} {p : Path} {r : SymbolRef}
    (ha : t.addSymbol s h g p = .ok (t', r)) (ht : stType s.st_info ≠ STT_SECTION) (hb : stBind s.st_info = 1) (h0 : s.st_shndx ≠ 0) :
    6 ≤ symRank (t'.get (.named s.st_name)) := by
  unfold SymbolTable.addSymbol at ha
  simp only at ha
  split at ha
  · next hs => exact absurd hs ht
  · split at ha
    · next old ho =>
      split at ha
      · cases ha
      · next s' hr =>
        cases ha
        simp only [SymbolTable.get, AMap.get?_modify]
        rw [if_true, ho]
        exact resolve_global hr hb h0
    · next ho =>
      cases ha
      simp only [SymbolTable.get, AMap.get?_append]
      rw [ho]
      simp [symRank, AMap.get?, hb, h0, bindRank]

/-- a global definition settles a symbol for good -/
theorem Step.rank_global {s : Sym} {sec : Option SectionRef} {n : Name} {path : Path} {r : SymbolRef} (h : Step w (.sym s sec n path r) w')
    (ht : s.st_info % 16 ≠ 3) (hb : s.st_info / 16 = 1) (h0 : s.st_shndx ≠ 0) : 6 ≤ rankAt w' n := by
  cases h with
  | sym h =>
    simp only [Writer.addSymbol] at h
    split at h
    · cases h
    · next ha =>
      simp only [bind_ok] at h
      obtain ⟨w1, hn, h⟩ := h
      cases h
      have := SymbolTable.addSymbol_global ha ht hb h0
      unfold rankAt
      rw [noteSymbol_rest hn]
      have hg : ∃ e, (w.symstr.getOrCreate n).2.get n = some e ∧ e.offset = (w.symstr.getOrCreate n).1.offset := by
        cases hg : w.symstr.get n with
        | some e => exact ⟨e, getOrCreate_get hg, (getOrCreate_offset hg).symm⟩
        | none =>
          unfold StringTable.get at hg ⊢
          unfold StringTable.getOrCreate
          cases hn : AMap.get? w.symstr.names n with
          | some x => rw [hn] at hg; cases hg
          | none =>
            simp only [AMap.get?_append, hn]
            simp [AMap.get?]
      obtain ⟨e, hg, ho⟩ := hg
      simp only [hg, ho]
      exact this

/-- names stay in the string table -/
theorem Step.name_kept {opts : Options} (h : Hist opts ops w) {op : Op} (hs : Step w op w') {k : Nat} {n : Name} (hn : w.symstr.name k = some n) :
    w'.symstr.name k = some n := by
  obtain ⟨ns, nd, T⟩ := h.tableFacts
  obtain ⟨h1, h2⟩ := T.symstr.name_some hn
  rw [hs.strs.1]
  have key : ∀ m, (w.symstr.getOrCreate m).2.name k = some n := by
    intro m
    have hpre : ns <+: intern ns m := by
      unfold intern; split
      · exact List.prefix_refl _
      · exact ⟨_, rfl⟩
    have := Holds_name (T.symstr.getOrCreate m) (hpre.subset h1)
    rw [nameOff_prefix hpre h1, ← h2] at this
    exact this
  cases op with
  | sym s sec m path r => exact key m
  | _ => exact hn

theorem no_duplicate (h : Hist l.options ops w) (hf : FromInputs env l C ops) {p : Path} {d : Bytes} {e : ElfFile} {j : Nat} {s : Sym} {n : Name}
    (hi : InputAt env l p d e) (hs : e.syms[j]? = some s) (hC : ¬ C p d j) (hn : e.symName s.st_name = some n) (hsm : NamesSmall env l)
    (hD : DefinedOnce env l) {ref : Path} : w.symtab.addSymbol { s with st_name := u32 (w.symstr.getOrCreate n).1.offset } (elfHash n) (elfGnuHash n) p ≠ .error ref := by
  intro he
  simp only [SymbolTable.addSymbol] at he
  split at he
  · cases he
  · next h3 =>
    split at he
    · next old hold =>
      split at he
      · next hr =>
        have hr' : stBind old.sym.st_info = 1 ∧ stBind s.st_info = 1 ∧ old.sym.st_shndx ≠ 0 ∧ s.st_shndx ≠ 0 := by
          unfold resolve at hr
          split at hr
          · next hc =>
            have e0 : SHN_UNDEF = 0 := rfl
            have e1 : STB_GLOBAL = 1 := rfl
            simp only [Symbol.isGlobal, e0, e1, Bool.and_eq_true, beq_iff_eq, bne_iff_ne] at hc
            exact ⟨hc.1.1.1, hc.1.1.2, hc.1.2, hc.2⟩
          · split at hr
            · cases hr
            · split at hr <;> cases hr
        obtain ⟨g1, g2, g3, g4⟩ := hr'
        obtain ⟨ns, nd, T⟩ := h.tableFacts
        have hk : ∀ a ∈ symAdds ns ops, a.mentions (u32 (w.symstr.getOrCreate n).1.offset) → ∃ s' p' d' j', InputSym env l p' d' j' s' n ∧ C p' d' j' ∧
              s'.st_shndx = a.sym.st_shndx := by
          intro a ha hm
          have hH := T.symstr.getOrCreate n
          have hoff : (w.symstr.getOrCreate n).1.offset = nameOff (intern ns n) n := Holds.offset T.symstr (List.prefix_refl _)
          have hpre : ns <+: intern ns n := by
            unfold intern; split
            · exact List.prefix_refl _
            · exact ⟨_, rfl⟩
          have htot : (w.symstr.getOrCreate n).2.totalLen < 2 ^ 32 := by
            rw [hH.total]
            refine hsm.total hf hH.nodup fun m hm => ?_
            rcases mem_intern_iff.1 hm with hm | hm
            · rcases (T.symNames m).1 hm with hm | hm
              · exact .inl hm
              · exact .inr (.inl hm)
            · subst hm
              exact .inr (.inr ⟨_, _, _, _, hi, List.mem_of_getElem? hs, hn⟩)
          obtain ⟨s', sec, m, path, r, hop, rfl⟩ := mem_symAdds ha
          have hmns : m ∈ ns := (T.symNames m).2 (.inr (mem_symNames hop))
          have : m = n := by
            refine u32_nameOff_inj hH htot (hpre.subset hmns) (mem_intern ns n) ?_
            rw [nameOff_prefix hpre hmns, ← hoff]
            exact hm.2
          subst this
          obtain ⟨d', e', j', i1, i2, i3, i4⟩ := hf _ _ _ _ _ hop
          exact ⟨s', path, d', j', ⟨e', i1, i2, i3, hm.1⟩, i4, rfl⟩
        have hget : (w.symtab.mapSyms undyn).get (.named (u32 (w.symstr.getOrCreate n).1.offset)) = some (undyn old) := by
          rw [get_mapSyms]; simp only [SymbolTable.get, hold]; rfl
        have := merged_forall T.inv.sym (P := fun x => x.sym.st_shndx ≠ 0 → ∃ p' d' j' s', InputSym env l p' d' j' s' n ∧ C p' d' j' ∧ s'.st_shndx ≠ 0)
            (fun _ h => absurd rfl h) (fun a ha hm h => by
              obtain ⟨s', p', d', j', i, o, j⟩ := hk a ha hm
              exact ⟨p', d', j', s', i, o, by rw [j]; exact h⟩)
            (fun a _ _ hP old' s' ho hr h => by
              rcases resolve_cases hr with ⟨_, _, h2⟩ | ⟨_, _, h2⟩
              · exact hP (h2 ▸ h)
              · rw [h2] at h
                split at h
                · exact hP h
                · exact ho h) hget
        obtain ⟨p', d', j', s', i, o, j0⟩ := this g3
        obtain ⟨rfl, rfl, rfl⟩ := hD.names _ _ _ _ _ _ _ _ _ ⟨e, hi, hs, hn, h3⟩ g2 g4 i j0
        exact hC o
      · cases he
    · cases he

/-- What is known of the writer `w`, which was `w0` before: the symbols it has received are the ones in `C`, whose global definitions are settled. -/
structure Kept (env : Env) (l : Linker) (C : Path → Bytes → Nat → Prop) (w0 w : Writer) : Prop where
  fed : Fed env l C w
  settled : ∀ p d j s n, C p d j → InputSym env l p d j s n → s.st_info / 16 = 1 → s.st_shndx ≠ 0 → 6 ≤ rankAt w n
  names : ∀ k n, w0.symstr.name k = some n → w.symstr.name k = some n

theorem Kept.step (h : Kept env l C w0 w) {op : Op} (hs : Step w op w') (hop : ∀ s sec n path r, op ≠ Op.sym s sec n path r) : Kept env l C w0 w' := by
  refine ⟨h.fed.step hs fun s sec n path r e => absurd e (hop s sec n path r), ?_, ?_⟩
  · intro p d j s n hc hi hb h0
    exact Nat.le_trans (h.settled p d j s n hc hi hb h0) (hs.rank_le n)
  · intro k n hn
    obtain ⟨ops, h1, _⟩ := h.fed
    exact hs.name_kept h1 (h.names k n hn)

theorem Kept.congr {C' : Path → Bytes → Nat → Prop} (h : Kept env l C w0 w) (h1 : ∀ p d j, C p d j → C' p d j)
    (h2 : ∀ p d j s n, C' p d j → InputSym env l p d j s n → C p d j) : Kept env l C' w0 w :=
  ⟨h.fed.mono h1, fun p d j s n hc hi => h.settled p d j s n (h2 p d j s n hc hi) hi, h.names⟩

namespace Linker
variable {p : Path} {d : Bytes} {e : ElfFile}

/-- the object being processed is that file -/
structure Doing (env : Env) (l : Linker) (C : Path → Bytes → Nat → Prop) (p : Path) (d : Bytes) (e : ElfFile) (w0 : Writer) (o : Obj) (w : Writer) : Prop where
  path : o.path = p
  data : o.data = d
  elf : o.elf = e
  kept : Kept env l C w0 w

theorem processSections_once {o : Obj} (h : Doing env l C p d e w0 o w) :
    Safe Undup (fun (st : Obj × Writer) => Doing env l C p d e w0 st.1 st.2) (processSections o w) := by
  unfold processSections
  refine Safe.foldM' (I := fun (st : Obj × Writer) => Doing env l C p d e w0 st.1 st.2) _ ?_ _ h
  rintro ⟨sh, i⟩ hm ⟨o', w1⟩ hI
  simp only [processSection]
  split
  · exact hI
  · refine Safe.bind (Q := fun _ => True) (Safe.orErr (fun hn => .strtab) fun _ _ => trivial) fun name hname _ => ?_
    refine Safe.bind (Q := fun _ => True) (Safe.of_panics (sectionData_panics _ _) .panic fun _ _ => trivial) fun data _ _ => ?_
    refine Safe.bind (Q := fun x => Kept env l C w0 x.1) (Safe.of_panics (pushSection_panics _ _ _ _) .panic fun x hx => ?_) fun x _ hx => ?_
    · exact hI.kept.step (.push hx) nofun
    · exact ⟨hI.path, hI.data, hI.elf, hx⟩

theorem processSymbols_once (hsm : NamesSmall env l) (hD : DefinedOnce env l) (hi : InputAt env l p d e) {o : Obj} (h : Doing env l C p d e w0 o w)
    (hC : ∀ j, ¬ C p d j) :
    Safe Undup (fun (st : Obj × Writer) => Doing env l (fun p' d' j => C p' d' j ∨ (p' = p ∧ d' = d)) p d e w0 st.1 st.2) (processSymbols o w) := by
  unfold processSymbols
  have key := Safe.foldPrefix (P := Undup)
    (I := fun done (st : Obj × Writer) => Doing env l (fun p' d' j => C p' d' j ∨ (p' = p ∧ d' = d ∧ j < done.length)) p d e w0 st.1 st.2)
    (f := processSymbol) o.elf.syms [] ?_ (o, w) ⟨h.path, h.data, h.elf, h.kept.congr (fun _ _ _ h => .inl h) ?_⟩
  · refine key.mono fun st _ hst => ⟨hst.path, hst.data, hst.elf, hst.kept.congr (fun p' d' j hh => ?_) ?_⟩
    · rcases hh with hh | hh
      · exact .inl hh
      · exact .inr ⟨hh.1, hh.2.1⟩
    · rintro p' d' j s n (hc | ⟨rfl, rfl⟩) hin
      · exact .inl hc
      · refine .inr ⟨rfl, rfl, ?_⟩
        obtain ⟨e', i1, i2, _⟩ := hin
        have : e' = e := by
          have a : env.parseElf d' = some e' := by cases i1 <;> assumption
          have b : env.parseElf d' = some e := by cases hi <;> assumption
          rw [a] at b; cases b; rfl
        subst this
        rw [h.elf, List.nil_append]
        exact (List.getElem?_eq_some_iff.1 i2).1
  · rintro done s rest hl ⟨o', w1⟩ hI
    rw [h.elf] at hl
    rw [List.nil_append] at hl
    have hj : e.syms[done.length]? = some s := by rw [hl]; simp
    simp only [processSymbol]
    refine Safe.bind (Q := fun n => e.symName s.st_name = some n) (Safe.orErr (fun hn => .strtab) fun n hn => ?_) fun name _ hname => ?_
    · rw [← hI.elf]; exact hn
    · refine Safe.bind (Q := fun x => Kept env l (fun p' d' j => C p' d' j ∨ (p' = p ∧ d' = d ∧ j < (done ++ [s]).length)) w0 x.1) ?_
        fun x _ hx => ⟨hI.path, hI.data, hI.elf, hx⟩
      rw [hI.path]
      cases ha : w1.addSymbol s (AMap.get? o'.sectionRelocations s.st_shndx) name p with
      | ok x =>
        have hstep : Step w1 (.sym s (AMap.get? o'.sectionRelocations s.st_shndx) name p x.2) x.1 := .sym ha
        refine ⟨(hI.kept.fed.mono fun p' d' j hh => ?_).step hstep ?_, ?_, ?_⟩
        · rcases hh with hh | hh
          · exact .inl hh
          · exact .inr ⟨hh.1, hh.2.1, by rw [List.length_append]; simp; omega⟩
        · rintro _ _ _ _ _ ⟨⟩
          exact ⟨d, e, done.length, hi, hj, hname, .inr ⟨rfl, rfl, by simp⟩⟩
        · intro p' d' j s' n hc hin hb h0
          by_cases hcc : C p' d' j ∨ (p' = p ∧ d' = d ∧ j < done.length)
          · exact Nat.le_trans (hI.kept.settled p' d' j s' n hcc hin hb h0) (hstep.rank_le n)
          · rcases hc with hc | ⟨rfl, rfl, hlt⟩
            · exact absurd (.inl hc) hcc
            · have : j = done.length := by
                have : ¬ j < done.length := fun h => hcc (.inr ⟨rfl, rfl, h⟩)
                simp at hlt; omega
              subst this
              obtain ⟨e', i1, i2, i3, i4⟩ := hin
              have : e' = e := by
                have a : env.parseElf d' = some e' := by cases i1 <;> assumption
                have b : env.parseElf d' = some e := by cases hi <;> assumption
                rw [a] at b; cases b; rfl
              subst this
              cases hj.symm.trans i2
              cases hname.symm.trans i3
              exact hstep.rank_global i4 hb h0
        · intro k n hn
          obtain ⟨ops, h1, _⟩ := hI.kept.fed
          exact hstep.name_kept h1 (hI.kept.names k n hn)
      | error f =>
        show Undup f
        simp only [Writer.addSymbol] at ha
        split at ha
        · next old hold =>
          exfalso
          obtain ⟨ops, h1, h2⟩ := hI.kept.fed
          refine no_duplicate h1 h2 hi hj ?_ hname hsm hD hold
          rintro (hh | hh)
          · exact hC _ hh
          · exact absurd hh.2.2 (Nat.lt_irrefl _)
        · next t r _ =>
          have : Panics (do let w ← noteSymbol { w1 with symstr := (w1.symstr.getOrCreate name).2, symtab := t }
                              { s with st_name := u32 (w1.symstr.getOrCreate name).1.offset } (AMap.get? o'.sectionRelocations s.st_shndx) r
                            Except.ok (w, r) : M (Writer × SymbolRef)) :=
            Panics.bind (noteSymbol_panics _ _ _ _) fun _ => Panics.ok _
          rw [this f ha]
          exact .panic
  · rintro p' d' j s n (hc | ⟨_, _, hlt⟩) _
    · exact hc
    · exact absurd hlt (Nat.not_lt_zero _)

theorem processRelocations_once {o : Obj} (h : Kept env l C w0 w) : Safe Undup (Kept env l C w0) (processRelocations o w) := by
  unfold processRelocations
  refine Safe.foldM' (I := Kept env l C w0) _ ?_ _ h
  rintro ⟨pos, rs⟩ hm w1 hI
  refine Safe.foldM' (I := Kept env l C w0) _ ?_ _ hI
  intro rel hr w2 hI
  simp only [processReloc]
  split
  · exact hI
  · refine Safe.bind (Q := fun _ => True) (Safe.unwrap .panic fun _ _ => trivial) fun s _ _ => ?_
    split
    · exact Undup.panic
    · split
      · exact hI
      · split
        · exact hI
        · next _ sr _ _ r _ =>
          cases ha : w2.addRelocation { r_offset := rel.r_offset, r_info := rel.r_sym * 2 ^ 32 + rel.r_type, r_addend := rel.r_addend.getD 0 } r sr o.path with
          | ok w3 => exact hI.step (.reloc ha) nofun
          | error f =>
            show Undup f
            simp only [Writer.addRelocation] at ha
            split at ha
            · cases ha; exact .reloc
            · rw [modChunk_panics _ _ _ f ha]
              exact .panic

theorem matchDynsym_once {name : Name} {s : Sym} {st : Writer × Bool} (h : Kept env l C w0 st.1) :
    Safe Undup (fun (st : Writer × Bool) => Kept env l C w0 st.1) (matchDynsym e p name st s) := by
  unfold matchDynsym
  refine Safe.bind (Q := fun _ => True) (Safe.orErr (fun hn => .strtab) fun _ _ => trivial) fun inner _ _ => ?_
  split
  · refine Safe.bind (Q := fun x => Kept env l C w0 x.1) ?_ fun x _ hx => ?_
    · cases ha : st.1.addDynSymbol s inner p with
      | ok x => exact h.step (.dynsym ha) nofun
      | error f =>
        show Undup f
        simp only [Writer.addDynSymbol] at ha
        split at ha
        · next old hold =>
          exfalso
          simp only [SymbolTable.addSymbol] at hold
          split at hold
          · cases hold
          · split at hold
            · split at hold
              · next hr =>
                unfold resolve at hr
                split at hr
                · next hc =>
                  simp [SHN_UNDEF] at hc
                · split at hr
                  · cases hr
                  · split at hr <;> cases hr
              · cases hold
            · cases hold
        · split at ha
          · cases ha
          · split at ha
            · cases ha; exact .panic
            · cases ha
    · refine Safe.bind (Q := fun _ => True) (Safe.unwrap .panic fun _ _ => trivial) fun f _ _ => ?_
      exact Kept.step (op := .needed f) hx .needed nofun
  · exact h

theorem findInLibs_once {order : Nat → List SymbolRef → List SymbolRef} {und : List SymbolRef} (h : Kept env l C w0 w) :
    Safe Undup (fun (st : Writer × List SymbolRef) => Kept env l C w0 st.1 ∧ ∀ r ∈ st.2, r ∈ und) (findInLibs env l order und w) := by
  unfold findInLibs
  refine Safe.foldM' (I := fun (st : Writer × List SymbolRef) => Kept env l C w0 st.1 ∧ ∀ r ∈ st.2, r ∈ und) _ ?_ _ ⟨h, fun _ h => h⟩
  rintro ⟨p, i⟩ hm ⟨w1, und1⟩ ⟨hI, hu⟩
  unfold searchLib
  refine Safe.bind (Q := fun d => env.read p = some d) (Safe.orErr (fun hn => .input) fun _ h => h) fun d _ hd => ?_
  refine Safe.bind (Q := fun e => env.parseElf d = some e) (Safe.unwrap .panic fun _ h => h) fun e _ he => ?_
  refine Safe.bind (Q := fun (st : Writer × List SymbolRef) => Kept env l C w0 st.1) ?_ fun st _ hst => ⟨hst, fun r hr => hu r (List.mem_filter.1 hr).1⟩
  refine Safe.foldM' (I := fun (st : Writer × List SymbolRef) => Kept env l C w0 st.1) _ ?_ _ hI
  intro r _ st hI
  unfold searchLibEntry
  refine Safe.bind (Q := fun _ => True) (Safe.of_panics (symbolName_panics _ _) .panic fun _ _ => trivial) fun o _ _ => ?_
  cases o with
  | none => exact hI
  | some name =>
    refine Safe.bind (Q := fun (st : Writer × Bool) => Kept env l C w0 st.1) ?_ fun st _ hst => hst
    exact Safe.foldM' (I := fun (st : Writer × Bool) => Kept env l C w0 st.1) _ (fun s hs st hI => matchDynsym_once hI) _ hI

/-- the files whose symbols were handed over -/
abbrev Whole (D : Path → Bytes → Prop) : Path → Bytes → Nat → Prop := fun p d _ => D p d

theorem linkMember_once (hsm : NamesSmall env l) (hD : DefinedOnce env l) {D : Path → Bytes → Prop} {data : Bytes} {ar : ArFile} {n : Name} {m : Bytes}
    (hp : p ∈ l.archives) (hd : env.read p = some data) (ha : env.parseAr data = some ar) (hn : ar.memberOfSymbol n = some m)
    (hnew : ∀ d, ar.get m = some d → ¬ D p d) (h : Kept env l (Whole D) w0 w) :
    Safe Undup (Kept env l (Whole fun p' d' => D p' d' ∨ (p' = p ∧ ar.get m = some d')) w0) (linkMember env p ar w m) := by
  unfold linkMember
  refine Safe.bind (Q := fun d => ar.get m = some d) (Safe.unwrap .panic fun _ h => h) fun d _ hm => ?_
  refine Safe.bind (Q := fun o => ∀ o', o = some o' → ∃ e, env.parseElf d = some e ∧ e.isObjectFile = true ∧ o' = { path := p, data := d, elf := e }) ?_ fun o _ ho => ?_
  · unfold toElfObject
    refine Safe.bind (Q := fun e => env.parseElf d = some e) (Safe.orErr (fun he => .input) fun _ h => h) fun e _ he => ?_
    intro o' ho'
    split at ho'
    · next hob => cases ho'; exact ⟨e, he, hob, rfl⟩
    · cases ho'
  · refine Safe.bind (Q := fun o' => o = some o') (Safe.unwrap .panic fun _ h => h) fun o' _ hoo => ?_
    obtain ⟨e, he, hob, rfl⟩ := ho o' hoo
    have hi : InputAt env l p d e := .member hp hd ha hn hm he hob
    refine Safe.bind (processSections_once ⟨rfl, rfl, rfl, h⟩) fun st _ hst => ?_
    refine Safe.bind (processSymbols_once hsm hD hi hst fun _ h => hnew d hm h) fun st _ hst => ?_
    refine (processRelocations_once hst.kept).mono fun _ _ h => h.congr (fun p' d' j hh => ?_) fun p' d' j s n hh _ => ?_
    · exact hh.imp id fun hh => ⟨hh.1, by rw [hh.2]; exact hm⟩
    · exact hh.imp id fun hh => ⟨hh.1, by rw [hm] at hh; exact (Option.some.inj hh.2).symm⟩

theorem processArchives_once (hsm : NamesSmall env l) (hD : DefinedOnce env l) (hx : GlobalIndexes env l) (hnd : l.archives.Nodup) {sched : LinkSched}
    (hv : sched.Valid) {round : Nat} {und und0 : List SymbolRef} {D : Path → Bytes → Prop} (h0 : Kept env l (Whole D) w0 w0)
    (h : Kept env l (Whole D) w0 w) (hs : ∀ r ∈ und, r ∈ und0) (hu : ∀ r ∈ und0, ∃ n, NameAt w0 r n ∧ openRank (rankAt w0 n)) :
    Safe Undup (fun (st : Writer × List SymbolRef) => ∃ D, Kept env l (Whole D) w0 st.1) (processArchives env l sched round und w) := by
  unfold processArchives
  have key := Safe.foldPrefix (P := Undup) (I := fun done (st : Writer × List SymbolRef) => (∀ r ∈ st.2, r ∈ und0) ∧
      ∃ D', Kept env l (Whole D') w0 st.1 ∧ ∀ p d, D' p d → D p d ∨ p ∈ done.map (·.1))
    (f := searchArchive env (sched.undefAr round) (sched.members round)) (sched.archives l.archives).zipIdx [] ?_ (w, und)
    ⟨hs, D, h, fun _ _ h => .inl h⟩
  · exact key.mono fun st _ hst => ⟨_, hst.2.choose_spec.1⟩
  rintro done ⟨p, i⟩ rest hl ⟨w1, und1⟩ ⟨hs1, D1, hI, hD1⟩
  rw [List.nil_append] at hl
  have hm : (p, i) ∈ (sched.archives l.archives).zipIdx := by rw [hl]; simp
  have hp : p ∈ l.archives := (hv.archives _).mem_iff.1 (List.mem_of_getElem? (List.mem_zipIdx_iff_getElem?.1 hm))
  have hfresh : p ∉ done.map (·.1) := by
    have e : (sched.archives l.archives).zipIdx.map (·.1) = sched.archives l.archives := List.zipIdx_map_fst _ _
    have := (hv.archives l.archives).nodup_iff.2 hnd
    rw [← e, hl, List.map_append, List.map_cons, List.nodup_append] at this
    exact fun h => this.2.2 _ h _ (by simp) rfl
  unfold searchArchive
  refine Safe.bind (Q := fun d => env.read p = some d) (Safe.orErr (fun hn => .input) fun _ h => h) fun data _ hd => ?_
  refine Safe.bind (Q := fun e => env.parseAr data = some e) (Safe.orErr (fun hn => .input) fun _ h => h) fun ar _ ha => ?_
  refine Safe.bind (Q := fun (st : List SymbolRef × List Bytes) => st.2.Nodup ∧ ∀ m ∈ st.2, ∃ n, ar.memberOfSymbol n = some m ∧ openRank (rankAt w0 n)) ?_
    fun st _ hst => ?_
  · refine Safe.foldM' (I := fun (st : List SymbolRef × List Bytes) => st.2.Nodup ∧ ∀ m ∈ st.2, ∃ n, ar.memberOfSymbol n = some m ∧ openRank (rankAt w0 n)) _ ?_ _
      ⟨List.nodup_nil, by simp⟩
    intro r hr st hI'
    have hr : r ∈ und1 := (hv.undefAr _ _ _).mem_iff.1 hr
    unfold searchArEntry
    refine Safe.bind (Q := fun o => ∀ n, o = some n → NameAt w1 r n) (Safe.of_panics (symbolName_panics _ _) .panic fun o ho => ?_) fun o _ ho => ?_
    · intro n hn
      subst hn
      cases r with
      | named k =>
        simp only [Writer.symbolName, bind_ok, unwrap_ok] at ho
        obtain ⟨m, hm, e⟩ := ho
        cases e
        exact ⟨k, rfl, hm⟩
      | «section» a b => simp only [Writer.symbolName] at ho; cases ho
    cases o with
    | none => exact hI'
    | some name =>
      simp only []
      split
      · exact hI'
      · next m hm =>
        obtain ⟨n, ⟨k, e1, hk⟩, hopen⟩ := hu r (hs1 r hr)
        obtain ⟨k', e2, hk'⟩ := ho name rfl
        rw [e1] at e2; cases e2
        have := hI.names k n hk
        rw [hk'] at this; cases this
        show (if m ∈ st.2 then st.2 else st.2 ++ [m]).Nodup ∧ ∀ m' ∈ (if m ∈ st.2 then st.2 else st.2 ++ [m]), _
        split
        · exact hI'
        · next hmem =>
          constructor
          · rw [List.nodup_append]
            refine ⟨hI'.1, by simp, fun a ha b hb e => hmem ?_⟩
            rw [List.mem_singleton.1 hb] at e; rw [← e]; exact ha
          · intro m' hm'
            rcases List.mem_append.1 hm' with h | h
            · exact hI'.2 m' h
            · exact ⟨name, by rw [List.mem_singleton.1 h]; exact hm, hopen⟩
  · have key := Safe.foldPrefix (P := Undup) (I := fun (dn : List Bytes) w => Kept env l (Whole fun p' d' => D1 p' d' ∨ (p' = p ∧ ∃ m ∈ dn, ar.get m = some d')) w0 w)
      (f := linkMember env p ar) (sched.members round i st.2) [] ?_ w1 (hI.congr (fun _ _ _ h => .inl h) fun p' d' j s n hh _ => hh.elim id fun h => by simp at h)
    · refine Safe.bind key fun w _ hw => ⟨fun r hr => hs1 r (List.mem_filter.1 hr).1, _, hw, ?_⟩
      intro p' d' hh
      rw [List.map_append]
      rcases hh with hh | hh
      · rcases hD1 _ _ hh with h | h
        · exact .inl h
        · exact .inr (List.mem_append_left _ h)
      · exact .inr (List.mem_append_right _ (by simp [hh.1]))
    intro dn m rest' hl' w2 hw2
    rw [List.nil_append] at hl'
    have hperm := hv.members round i st.2
    obtain ⟨n, hn, hopen⟩ := hst.2 m (hperm.mem_iff.1 (by rw [hl']; simp))
    have hnodup := hperm.nodup_iff.2 hst.1
    rw [hl', List.nodup_append] at hnodup
    refine (linkMember_once hsm hD hp hd ha hn ?_ hw2).mono fun _ _ h => h.congr (fun p' d' j hh => ?_) fun p' d' j s n hh _ => ?_
    · intro d hg hh
      rcases hh with hh | ⟨_, m', hm', hg'⟩
      · rcases hD1 _ _ hh with hh | hh
        · obtain ⟨e, he, ho, s, hs, hsn, h3, hs0, hb⟩ := hx.global p hp data ar hd ha n m d hn hg
          obtain ⟨j, hj⟩ := List.getElem?_of_mem hs
          have := h0.settled p d j s n hh ⟨e, .member hp hd ha hn hg he ho, hj, hsn, h3⟩ hb hs0
          unfold openRank at hopen
          omega
        · exact hfresh hh
      · obtain ⟨n', hn', _⟩ := hst.2 m' (hperm.mem_iff.1 (by rw [hl']; simp [hm']))
        exact hnodup.2.2 m' hm' m (by simp) (hx.distinct p hp data ar hd ha n' m' n m d hn' hn hg' hg)
    · rcases hh with (hh | ⟨h1, m', hm', h2⟩) | ⟨h1, h2⟩
      · exact .inl hh
      · exact .inr ⟨h1, m', List.mem_append_left _ hm', h2⟩
      · exact .inr ⟨h1, m, by simp, h2⟩
    · rcases hh with hh | ⟨h1, m', hm', h2⟩
      · exact .inl (.inl hh)
      · rcases List.mem_append.1 hm' with h | h
        · exact .inl (.inr ⟨h1, m', h, h2⟩)
        · rw [List.mem_singleton.1 h] at h2
          exact .inr ⟨h1, h2⟩

theorem readAll_undup : ∀ (ps : List Path) (f : Fail), readAll env ps = .error f → Undup f
  | [], f, h => by cases h
  | p :: ps, f, h => by
    have : Safe Undup (fun _ => True) (readAll env (p :: ps)) := by
      unfold readAll
      refine Safe.bind (Q := fun _ => True) (Safe.orErr (fun _ => .input) fun _ _ => trivial) fun d _ _ => ?_
      refine Safe.bind (Q := fun _ => True) ?_ fun _ _ _ => trivial
      cases hx : readAll env ps with
      | ok x => trivial
      | error f => exact readAll_undup ps f hx
    rw [h] at this
    exact this

theorem undefined_open (hsm : NamesSmall env l) (h : Fed env l C w) {order : List Nat → List Nat} (ho : ∀ l, (order l).Perm l) {r : SymbolRef}
    (hr : r ∈ w.undefinedSymbols order) : ∃ n, NameAt w r n ∧ openRank (rankAt w n) := by
  obtain ⟨ops, h, hf⟩ := h
  obtain ⟨k, s, rfl, hs, hu⟩ := (mem_undefinedSymbols ho).1 hr
  obtain ⟨ns, nd, T⟩ := h.tableFacts
  obtain ⟨m, h1, h5, _⟩ := T.named k s hs
  obtain ⟨e, h3, h4⟩ := Holds.get_mem T.symstr h1
  have htot : w.symstr.totalLen < 2 ^ 32 := by
    rw [T.symstr.total]
    refine hsm.total hf T.symstr.nodup fun m hm => ?_
    rcases (T.symNames m).1 hm with hm | hm
    · exact .inl hm
    · exact .inr (.inl hm)
  refine ⟨m, ⟨k, rfl, ?_⟩, ?_⟩
  · rw [h5, u32_nameOff T.symstr htot h1, Holds_name T.symstr h1]
  · unfold rankAt
    rw [h3]
    simp only
    rw [h4, ← h5, hs, symRank_open]
    simp only [isUnresolved, Bool.and_eq_true, beq_iff_eq, Option.isNone_iff_eq_none] at hu
    exact ⟨hu.2, hu.1.1⟩

theorem resolveLoop_once (hsm : NamesSmall env l) (hD : DefinedOnce env l) (hx : GlobalIndexes env l) (hnd : l.archives.Nodup) {sched : LinkSched}
    (hv : sched.Valid) : ∀ (fuel round : Nat) (D : Path → Bytes → Prop) (w : Writer), Kept env l (Whole D) w w →
    ∀ r, resolveLoop env l sched fuel round (w.undefinedSymbols sched.symIter) w = some r → Safe Undup (fun _ => True) r
  | 0, _, _, _, _, r, hr => by simp [resolveLoop] at hr
  | fuel + 1, round, D, w, h, r, hr => by
    have hs : Safe Undup (fun (st : Writer × Nat) => ∃ D, Kept env l (Whole D) w st.1) (resolveRound env l sched round (w.undefinedSymbols sched.symIter) w) := by
      unfold resolveRound
      refine Safe.bind (findInLibs_once h) fun st _ hst => ?_
      refine Safe.bind (processArchives_once hsm hD hx hnd hv h hst.1 hst.2 fun r hr => undefined_open hsm h.fed hv.toSched.symIter hr) fun st _ hst => hst
    unfold resolveLoop at hr
    cases hx' : resolveRound env l sched round (w.undefinedSymbols sched.symIter) w with
    | error f =>
      rw [hx'] at hr hs
      cases hr
      exact hs
    | ok x =>
      rw [hx'] at hr hs
      simp only [] at hr
      split at hr
      · cases hr; exact trivial
      · obtain ⟨D', hs⟩ := hs
        exact resolveLoop_once hsm hD hx hnd hv fuel _ D' _ ⟨hs.fed, hs.settled, fun _ _ h => h⟩ r hr

theorem loadAll_once (hsm : NamesSmall env l) (hD : DefinedOnce env l) (h : Kept env l (fun _ _ _ => False) w w) :
    Safe Undup (fun w => ∃ D, Kept env l (Whole D) w w) (loadAll env l w) := by
  unfold loadAll
  refine Safe.bind (Q := fun r => r.map (·.1) = l.objects ∧ ∀ x ∈ r, x.1 ∈ l.objects ∧ env.read x.1 = some x.2) ?_ fun r _ hr => ?_
  · have := readAll_safe (env := env) (l := l) l.objects fun _ h => h
    cases hx : readAll env l.objects with
    | ok x => rw [hx] at this; exact this
    | error f => exact readAll_undup _ _ hx
  refine Safe.bind (Q := fun (st : List Obj × Writer) => Kept env l (fun _ _ _ => False) w st.2 ∧ (∀ o ∈ st.1, InputAt env l o.path o.data o.elf) ∧
    (st.1.map (·.path)).Sublist l.objects) ?_ fun st _ hst => ?_
  · have := Safe.foldPrefix (P := Undup) (I := fun done (st : List Obj × Writer) => Kept env l (fun _ _ _ => False) w st.2 ∧
      (∀ o ∈ st.1, InputAt env l o.path o.data o.elf) ∧ (st.1.map (·.path)).Sublist (done.map (·.1))) (f := loadObjects env) r [] ?_ ([], w)
      ⟨h, by simp, List.Sublist.refl _⟩
    · rw [List.nil_append, hr.1] at this
      exact this
    rintro done ⟨p, d⟩ rest hl ⟨os, w1⟩ ⟨hI, ho, hsub⟩
    rw [List.nil_append] at hl
    obtain ⟨hp, hd⟩ := hr.2 (p, d) (by rw [hl]; simp)
    have hsub' : (os.map (·.path)).Sublist ((done ++ [(p, d)]).map (·.1)) := by
      rw [List.map_append]
      exact hsub.trans (List.sublist_append_left _ _)
    unfold loadObjects
    refine Safe.bind (Q := fun o => ∀ o', o = some o' → ∃ e, InputAt env l p d e ∧ o' = { path := p, data := d, elf := e }) ?_ fun o _ hoo => ?_
    · unfold toElfObject
      refine Safe.bind (Q := fun e => env.parseElf d = some e) (Safe.orErr (fun he => .input) fun _ h => h) fun e _ he => ?_
      intro o' ho'
      split at ho'
      · next hob => cases ho'; exact ⟨e, .object hp hd he hob, rfl⟩
      · cases ho'
    · cases o with
      | none => exact ⟨hI, ho, hsub'⟩
      | some o' =>
        obtain ⟨e, hi, rfl⟩ := hoo o' rfl
        refine Safe.bind (processSections_once ⟨rfl, rfl, rfl, hI⟩) fun st _ hst => ⟨hst.kept, ?_, ?_⟩
        · intro o hm
          rcases List.mem_append.1 hm with hm | hm
          · exact ho o hm
          · rw [List.mem_singleton.1 hm, hst.path, hst.data, hst.elf]; exact hi
        · show ((os ++ [st.1]).map (·.path)).Sublist _
          rw [List.map_append, List.map_append]
          refine hsub.append ?_
          simp [hst.path]
  · have := Safe.foldPrefix (P := Undup) (I := fun (done : List Obj) w' => Kept env l (Whole fun p d => ∃ o ∈ done, o.path = p ∧ o.data = d) w w')
      (f := loadSymbols) st.1 [] ?_ st.2 (hst.1.congr (fun _ _ _ h => h.elim) fun p d j s n hh _ => by obtain ⟨o, ho, _⟩ := hh; cases ho)
    · exact this.mono fun _ _ h => ⟨_, h.fed, h.settled, fun _ _ h => h⟩
    intro done o rest hl w' hw
    rw [List.nil_append] at hl
    unfold loadSymbols
    have hi := hst.2.1 o (by rw [hl]; simp)
    refine Safe.bind (processSymbols_once hsm hD hi ⟨rfl, rfl, rfl, hw⟩ fun j hj => ?_) fun st' _ hst' => ?_
    · have := hst.2.2.nodup hD.files
      rw [hl, List.map_append, List.map_cons, List.nodup_append] at this
      obtain ⟨o', ho', e1, _⟩ := hj
      exact this.2.2 _ (List.mem_map_of_mem (f := (·.path)) ho') _ (by simp) e1
    · refine (processRelocations_once hst'.kept).mono fun _ _ h => h.congr (fun p' d' j hh => ?_) fun p' d' j s n hh _ => ?_
      · rcases hh with ⟨o', h1, h2⟩ | ⟨h1, h2⟩
        · exact ⟨o', List.mem_append_left _ h1, h2⟩
        · exact ⟨o, by simp, h1.symm, h2.symm⟩
      · obtain ⟨o', h1, h2⟩ := hh
        rcases List.mem_append.1 h1 with h | h
        · exact .inl ⟨o', h, h2⟩
        · rw [List.mem_singleton.1 h] at h2
          exact .inr ⟨h2.1.symm, h2.2.symm⟩

/-- the link of a program in which every name is defined once reports no second definition -/
theorem gathered_once (hsm : NamesSmall env l) (hD : DefinedOnce env l) (hx : GlobalIndexes env l) (hnd : l.archives.Nodup) {sched : LinkSched} (hv : sched.Valid)
    {fuel : Nat} {r : M Writer} (h : gathered env l sched fuel = some r) : Safe Undup (fun _ => True) r := by
  unfold gathered at h
  cases h0 : Writer.new l.options with
  | error f => rw [h0] at h; cases h; show Undup f; rw [new_panics _ f h0]; exact .panic
  | ok w =>
    rw [h0] at h
    simp only [] at h
    have hw : Kept env l (fun _ _ _ => False) w w := ⟨⟨[], .init h0, by rintro _ _ _ _ _ ⟨⟩⟩, fun _ _ _ _ _ h => h.elim, fun _ _ h => h⟩
    have hs := loadAll_once hsm hD hw
    cases h1 : loadAll env l w with
    | error f => rw [h1] at h hs; cases h; exact hs
    | ok w1 =>
      rw [h1] at h hs
      obtain ⟨D, hs⟩ := hs
      exact resolveLoop_once hsm hD hx hnd hv _ _ D _ hs r h

end Linker
end Dld
