import Verif.Lemmas.Weight
import Verif.Spec.Progress
/-! # The weight of a history of calls -/
namespace Dld
open Writer Spec StringTable

variable {opts : Options} {ops : List Op} {sched : Sched} {w w' : Writer}

theorem getOrCreate_le (t : StringTable) (n : Name) : (t.getOrCreate n).2.totalLen ≤ t.totalLen + n.length + 1 := by
  unfold getOrCreate
  split
  · simp only; omega
  · simp only; omega

/-- the number of relocations of a section -/
def Section.rels (s : Section) : Nat := (s.chunks.map (·.relocations.length)).sum

theorem relocsOf_length (w : Writer) : (relocsOf w).length = (w.sections.map Section.rels).sum := by
  unfold relocsOf
  rw [List.length_flatMap]
  congr 1
  apply List.map_congr_left
  intro s _
  rw [List.length_flatMap]; rfl

theorem sum_modify_le {α : Type} {f : α → Nat} {g : α → α} {k : Nat} (l : List α) (i : Nat) (h : ∀ a ∈ l, f (g a) ≤ f a + k) :
    ((l.modify i g).map f).sum ≤ (l.map f).sum + k := by
  induction l generalizing i with
  | nil => cases i <;> simp
  | cons a l ih =>
    cases i with
    | zero =>
      have := h a (by simp)
      simp only [List.modify_zero_cons, List.map_cons, List.sum_cons]; omega
    | succ i =>
      have := ih i fun b hb => h b (by simp [hb])
      simp only [List.modify_succ_cons, List.map_cons, List.sum_cons]; omega

theorem sum_set_le {α : Type} {f : α → Nat} {b : α} {k : Nat} (l : List α) (i : Nat) (h : ∀ a, l[i]? = some a → f b ≤ f a + k) :
    ((l.set i b).map f).sum ≤ (l.map f).sum + k := by
  induction l generalizing i with
  | nil => simp
  | cons a l ih =>
    cases i with
    | zero =>
      have := h a (by simp)
      simp only [List.set_cons_zero, List.map_cons, List.sum_cons]; omega
    | succ i =>
      have := ih i fun b hb => h b (by simpa using hb)
      simp only [List.set_cons_succ, List.map_cons, List.sum_cons]; omega

theorem sum_at_le' {f : Section → Nat} {g : Section → Section} {k p : Nat} (l : List Section) (hn : (l.map (·.ptr)).Nodup) (h : ∀ s ∈ l, s.ptr = p → f (g s) ≤ f s + k) :
    ((l.map fun s => if s.ptr = p then g s else s).map f).sum ≤ (l.map f).sum + k := by
  induction l with
  | nil => simp
  | cons a l ih =>
    rw [List.map_cons, List.nodup_cons] at hn
    have h1 := h a (by simp)
    have h2 := ih hn.2 fun s hs => h s (by simp [hs])
    simp only [List.map_cons, List.sum_cons]
    by_cases ha : a.ptr = p
    · have h3 : l.map (fun s => if s.ptr = p then g s else s) = l := by
        conv => rhs; rw [← List.map_id l]
        apply List.map_congr_left
        intro s hs
        rw [if_neg]; rfl
        intro e
        exact hn.1 (List.mem_map.2 ⟨s, hs, by rw [e, ha]⟩)
      have := h1 ha
      rw [if_pos ha, h3]; omega
    · rw [if_neg ha]; omega

theorem sum_at_le {f : Section → Nat} {g : Section → Section} {k p : Nat} (l : List Section) (hn : (l.map (·.ptr)).Nodup) (h : ∀ s ∈ l, f (g s) ≤ f s + k) :
    ((l.map fun s => if s.ptr = p then g s else s).map f).sum ≤ (l.map f).sum + k :=
  sum_at_le' l hn fun s hs _ => h s hs

theorem modChunk_rels {r : SectionRef} {f : Chunk → Chunk} {k : Nat} (hn : (w.sections.map (·.ptr)).Nodup) (hf : ∀ c, (f c).relocations.length ≤ c.relocations.length + k)
    (h : w.modChunk r f = .ok w') : (relocsOf w').length ≤ (relocsOf w).length + k ∧
      (w'.sections.map fun s => s.sh.sh_size + 4300) = w.sections.map fun s => s.sh.sh_size + 4300 := by
  simp only [modChunk, bind_ok] at h
  obtain ⟨s, _, h⟩ := h
  split at h
  · rw [← Except.ok.inj h, relocsOf_length, relocsOf_length]
    refine ⟨sum_at_le _ hn fun s _ => sum_modify_le _ _ fun c _ => hf c, ?_⟩
    simp only [modSec, List.map_map]
    apply List.map_congr_left
    intro s _
    simp only [Function.comp]
    split <;> rfl
  · cases h

theorem noteSymbol_rels {e : Sym} {sec : Option SectionRef} {r : SymbolRef} (hn : (w.sections.map (·.ptr)).Nodup) (h : w.noteSymbol e sec r = .ok w') :
    (relocsOf w').length ≤ (relocsOf w).length ∧ (w'.sections.map fun s => s.sh.sh_size + 4300) = w.sections.map fun s => s.sh.sh_size + 4300 := by
  unfold noteSymbol at h
  split at h
  · cases h; exact ⟨Nat.le_refl _, rfl⟩
  · split at h
    · exact modChunk_rels (k := 0) hn (fun c => by unfold Chunk.addSymbol; split <;> simp) h
    · cases h; exact ⟨Nat.le_refl _, rfl⟩

theorem amap_modify_sum {κ ν : Type} [DecidableEq κ] (f : ν → Nat) (m : List (κ × ν)) (k : κ) {old v : ν} {n : Nat} (h : AMap.get? m k = some old)
    (hv : f v ≤ f old + n) : ((AMap.modify m k fun _ => v).map fun e => f e.2).sum ≤ (m.map fun e => f e.2).sum + n := by
  induction m with
  | nil => cases h
  | cons e m ih =>
    obtain ⟨a, x⟩ := e
    simp only [AMap.get?] at h
    simp only [AMap.modify]
    by_cases ha : a = k
    · rw [if_pos ha] at h ⊢
      cases h
      simp only [List.map_cons, List.sum_cons]; omega
    · rw [if_neg ha] at h ⊢
      have := ih h
      simp only [List.map_cons, List.sum_cons]; omega

theorem addSymbol_le {t t' : SymbolTable} {e : Sym} {hs gh : UInt32} {p : Path} {r : SymbolRef} (h : t.addSymbol e hs gh p = .ok (t', r)) :
    t'.symbols.length ≤ t.symbols.length + 1 ∧
    (t'.symbols.map fun x => x.2.sym.st_size).sum ≤ (t.symbols.map fun x => x.2.sym.st_size).sum + e.st_size := by
  unfold SymbolTable.addSymbol at h
  simp only at h
  split at h
  · cases h; exact ⟨by simp, by simp⟩
  · split at h
    · next old ho =>
      split at h
      · cases h
      · next s hs =>
        cases h
        refine ⟨by simp, amap_modify_sum (fun x : Symbol => x.sym.st_size) _ _ ho ?_⟩
        unfold SymbolTable.resolve at hs
        split at hs
        · cases hs
        · split at hs
          · cases hs; simp only; omega
          · split at hs <;> cases hs <;> simp
    · cases h
      simp

theorem Step.weight (hn : (w.sections.map (·.ptr)).Nodup) {op : Op} (h : Step w op w') : w'.weight ≤ w.weight + op.cost := by
  unfold Writer.weight
  cases h with
  | @push _ name sh data r h =>
    simp only [Op.cost]
    have hs := getOrCreate_le w.shstr name
    unfold pushSection at h
    simp only at h
    split at h
    · cases h
      rw [relocsOf_length, relocsOf_length]
      simp only [List.map_append, List.sum_append, List.map_cons, List.map_nil, List.sum_cons, List.sum_nil, Section.rels, List.length_nil]
      omega
    · split at h
      · cases h
      · next s hsi =>
        split at h
        · next d =>
          cases h
          rw [relocsOf_length, relocsOf_length]
          have h1 := sum_set_le (f := fun s : Section => s.sh.sh_size + 4300) (k := sh.sh_size)
            (b := Section.addChunk { s with sh := { s.sh with sh_size := s.sh.sh_size + sh.sh_size, sh_addralign := max s.sh.sh_addralign sh.sh_addralign } } d) w.sections _
            fun a ha => by rw [hsi] at ha; cases ha; simp only [Section.addChunk]; omega
          have h2 := sum_set_le (f := Section.rels) (k := 0)
            (b := Section.addChunk { s with sh := { s.sh with sh_size := s.sh.sh_size + sh.sh_size, sh_addralign := max s.sh.sh_addralign sh.sh_addralign } } d) w.sections _
            fun a ha => by rw [hsi] at ha; cases ha; simp [Section.addChunk, Section.rels]
          simp only at h1 h2 ⊢
          omega
        · split at h
          · cases h
          · cases h
            rw [relocsOf_length, relocsOf_length]
            have h1 := sum_set_le (f := fun s : Section => s.sh.sh_size + 4300) (k := sh.sh_size)
              (b := { s with sh := { s.sh with sh_size := s.sh.sh_size + sh.sh_size, sh_addralign := max s.sh.sh_addralign sh.sh_addralign } }) w.sections _
              fun a ha => by rw [hsi] at ha; cases ha; simp only; omega
            have h2 := sum_set_le (f := Section.rels) (k := 0)
              (b := { s with sh := { s.sh with sh_size := s.sh.sh_size + sh.sh_size, sh_addralign := max s.sh.sh_addralign sh.sh_addralign } }) w.sections _
              fun a ha => by rw [hsi] at ha; cases ha; simp [Section.rels]
            simp only at h1 h2 ⊢
            omega
  | @sym _ s sec name path r h =>
    simp only [Op.cost]
    have hs := getOrCreate_le w.symstr name
    simp only [addSymbol] at h
    split at h
    · cases h
    · next t r' ht =>
      simp only [bind_ok] at h
      obtain ⟨w1, h1, h2⟩ := h
      cases h2
      have h3 := noteSymbol_rels (w := { w with symstr := (w.symstr.getOrCreate name).2, symtab := t }) hn h1
      have h4 := (addSymbol_le ht).1
      rw [h3.2]
      have h5 : (relocsOf w').length ≤ (relocsOf w).length := h3.1
      have he := noteSymbol_rest h1
      have e1 : w'.shstr = w.shstr := by rw [he]
      have e2 : w'.symstr = (w.symstr.getOrCreate name).2 := by rw [he]
      have e3 : w'.dynstr = w.dynstr := by rw [he]
      have e4 : w'.symtab = t := by rw [he]
      have e5 : w'.dynsym = w.dynsym := by rw [he]
      have e6 : w'.dynEntries = w.dynEntries := by rw [he]
      rw [e1, e2, e3, e4, e5, e6]
      simp only at h4 ⊢
      omega
  | @dynsym _ s name path r h =>
    simp only [Op.cost]
    have hs := getOrCreate_le w.dynstr name
    simp only [addDynSymbol] at h
    split at h
    · cases h
    · next t r' ht =>
      have h4 := addSymbol_le ht
      split at h
      · cases h
        simp only at h4 ⊢
        have h6 : (relocsOf { w with dynstr := (w.dynstr.getOrCreate name).2, dynsym := t }).length = (relocsOf w).length := rfl
        omega
      · split at h
        · cases h
        · cases h
          simp only [SymbolTable.modify, AMap.length_modify] at h4 ⊢
          have h6 : ∀ t', (relocsOf { w with dynstr := (w.dynstr.getOrCreate name).2, dynsym := t, symtab := t' }).length = (relocsOf w).length := fun _ => rfl
          rw [h6]
          omega
  | reloc h =>
    simp only [Op.cost]
    simp only [addRelocation] at h
    split at h
    · cases h
    · have h3 := modChunk_rels (k := 1) hn (fun c => by simp [Chunk.addRelocation]) h
      rw [h3.2]
      have h5 := h3.1
      rw [modChunk_rest h] at h5 ⊢
      simp only at h5 ⊢
      omega
  | @needed name =>
    simp only [Op.cost]
    have hs := getOrCreate_le w.dynstr name
    unfold addNeeded
    simp only
    have h6 : ∀ d e, (relocsOf { w with dynstr := d, dynEntries := e }).length = (relocsOf w).length := fun _ _ => rfl
    rw [h6]
    split
    · simp only [List.length_append, List.length_cons, List.length_nil]; omega
    · omega

theorem new_weight (h : Writer.new opts = .ok w) : w.weight ≤ baseCost opts := by
  obtain ⟨-, -, h2⟩ := new_idents opts w h
  have h3 : ∀ b ∈ w.sections, b.rels = 0 := by
    intro b hb
    have := new_address h b hb
    rw [Section.rels, List.map_congr_left (g := fun _ => 0) fun c hc => by rw [(this c hc).2.1]; rfl, sum_map_const, Nat.zero_mul]
  have h4 : (relocsOf w).length = 0 := by
    rw [relocsOf_length, List.map_congr_left h3, sum_map_const, Nat.zero_mul]
  have h5 := congrArg (List.map fun e : Nat × List Chunk => e.1 + 4300) h2
  rw [List.map_map, List.map_map] at h5
  have h6 : w.sections.map (fun s => s.sh.sh_size + 4300) = _ := h5
  have h7 : w.shstr.totalLen ≤ 200 := by
    simp only [Writer.new, bind_ok] at h
    obtain ⟨f, hf, h⟩ := h
    cases h
    dsimp only
    generalize opts.hashStyle = hs
    cases hs <;> decide +kernel
  unfold Writer.weight
  rw [h4, h6]
  have h8 : ((baseIdents opts.hashStyle).map ((fun e : Nat × List Chunk => e.1 + 4300) ∘ fun i =>
        if i.1 = P.interp then (opts.dynamicLinker.full.length + 1, [{ data := opts.dynamicLinker.full ++ [0] }])
        else (0, []))).sum ≤ 68801 + opts.dynamicLinker.full.length := by
    generalize opts.hashStyle = hs
    cases hs <;> simp [Writer.wantsHash, Writer.wantsGnuHash, baseIdents, P.interp, P.null, P.shstr, P.symstr,
      P.dynstr, P.got, P.gotPlt, P.plt, P.sym, P.dynsym, P.dynamic, P.relaDyn, P.relaPlt, P.copyRel, P.hash, P.gnuHash] <;> omega
  have h9 : w.symstr.totalLen ≤ 1 ∧ w.dynstr.totalLen ≤ 2 + (opts.dynamicLinker.file.getD []).length ∧ w.symtab.symbols.length ≤ 1 ∧
      w.dynsym.symbols.length ≤ 1 ∧ w.dynEntries.length = 1 ∧ (w.dynsym.symbols.map fun e => e.2.sym.st_size).sum = 0 := by
    simp only [Writer.new, bind_ok, unwrap_ok] at h
    obtain ⟨f, hf, h⟩ := h
    cases h
    dsimp only
    rw [hf]
    have := getOrCreate_le StringTable.default f
    have h1 : StringTable.default.totalLen = 1 := by decide
    refine ⟨by decide, ?_, by decide, by decide, rfl, by decide⟩
    simp only [Option.getD_some]; omega
  unfold baseCost
  omega

theorem Hist.weight (h : Hist opts ops w) : w.weight ≤ baseCost opts + (ops.map Op.cost).sum := by
  induction h with
  | init h => simpa using new_weight h
  | step h hs ih =>
    have := hs.weight h.secFacts.nodup
    simp only [List.map_append, List.sum_append, List.map_cons, List.map_nil, List.sum_cons, List.sum_nil]
    omega

theorem copyEnd_eq (a : Nat) (ms : List Import) : copyEnd a ms = a + (ms.map fun m => m.copy.getD 0).sum := by
  induction ms generalizing a with
  | nil => rfl
  | cons m ms ih => simp only [copyEnd, ih, List.map_cons, List.sum_cons]; omega

/-- the copied objects fit in the sizes of the dynamic symbols -/
theorem Writer.Early.copies_le (st : Early sched w) (hv : sched.Valid) {ns nd : List Name} (T : TableFacts ns nd ops w) (hd : NamedDyns ops)
    (hcl : SymsClean ops) (hl : w.dynstr.totalLen < 2 ^ 32) : copyEnd 0 st.imports ≤ w.weight := by
  have h1 : ((st.imports.map fun m => (m.ref.st_name, m.copy.getD 0)).map (·.2)).sum ≤ (w.dynsym.symbols.map fun e => e.2.sym.st_size).sum := by
    refine AMap.sum_get_le (κ := Nat) _ (fun x : Symbol => x.sym.st_size) ?_ ?_
    · rw [List.map_map]
      refine List.pairwise_map.2 ((List.pairwise_map.1 (importKeys_nodup st hv T)).imp_of_mem ?_)
      intro a b ha hb hne he
      obtain ⟨n, F⟩ := st.import_facts T hd hcl ha
      obtain ⟨m, G⟩ := st.import_facts T hd hcl hb
      apply hne
      simp only [Function.comp, F.ref, G.ref, SymbolRef.st_name] at he
      rw [F.key, G.key, u32_nameOff_inj T.dynstr hl F.memD G.memD he]
    · intro e he
      obtain ⟨m, hm, rfl⟩ := List.mem_map.1 he
      obtain ⟨n, F⟩ := st.import_facts T hd hcl hm
      obtain ⟨x, hx, hc⟩ := F.dyn
      refine ⟨x, ?_, ?_⟩
      · rw [F.ref] at hx ⊢
        exact hx
      · simp only [hc]
        split
        · exact Nat.le_refl _
        · exact Nat.zero_le _
  rw [List.map_map] at h1
  rw [copyEnd_eq]
  unfold Writer.weight
  simp only [Function.comp_def] at h1
  omega

end Dld
