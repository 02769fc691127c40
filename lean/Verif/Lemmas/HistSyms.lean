import Verif.Lemmas.HistFacts
import Verif.Props.Symbols
import Verif.Spec.Got
import Verif.Spec.Run
/-! # What a history puts into the symbol tables -/
namespace Dld
open Spec StringTable Writer

namespace SymbolTable

/-- change every symbol -/
def mapSyms (f : Symbol → Symbol) (t : SymbolTable) : SymbolTable :=
  { t with symbols := t.symbols.map fun e => (e.1, f e.2), sectionSyms := t.sectionSyms.map fun e => (e.1, e.2.map f) }

/-- forget which dynamic symbol provides a symbol -/
def undyn (s : Symbol) : Symbol := { s with dynamic := none }

theorem get?_mapv {κ ν ν' : Type} [DecidableEq κ] (m : List (κ × ν)) (f : ν → ν') (k : κ) :
    AMap.get? (m.map fun e => (e.1, f e.2)) k = (AMap.get? m k).map f := by
  induction m with
  | nil => rfl
  | cons e m ih =>
    obtain ⟨a, b⟩ := e
    by_cases h : a = k <;> simp [AMap.get?, h, ih]

theorem modify_mapv {κ ν ν' : Type} [DecidableEq κ] (m : List (κ × ν)) (f : ν → ν') (g : ν → ν) (g' : ν' → ν') (k : κ)
    (h : ∀ v, g' (f v) = f (g v)) :
    AMap.modify (m.map fun e => (e.1, f e.2)) k g' = (AMap.modify m k g).map fun e => (e.1, f e.2) := by
  induction m with
  | nil => rfl
  | cons e m ih =>
    obtain ⟨a, b⟩ := e
    by_cases hk : a = k <;> simp [AMap.modify, hk, ih, h]

theorem insert_mapv {κ ν ν' : Type} [DecidableEq κ] (m : List (κ × ν)) (f : ν → ν') (k : κ) (v : ν) :
    AMap.insert (m.map fun e => (e.1, f e.2)) k (f v) = (AMap.insert m k v).map fun e => (e.1, f e.2) := by
  unfold AMap.insert
  rw [get?_mapv]
  cases h : AMap.get? m k with
  | none => simp
  | some x =>
    simp only [Option.map_some]
    exact modify_mapv _ _ _ _ _ fun _ => rfl

theorem resolve_undyn (old new : Symbol) : resolve (undyn old) new = (resolve old new).map undyn := by
  unfold resolve
  simp only [apply_ite (Option.map undyn), Option.map_none, Option.map_some]
  rfl

theorem addSymbol_undyn (t : SymbolTable) (s : Sym) (h g : UInt32) (p : Path) :
    (t.mapSyms undyn).addSymbol s h g p = (t.addSymbol s h g p).map fun e => (e.1.mapSyms undyn, e.2) := by
  unfold addSymbol
  by_cases hs : stType s.st_info = STT_SECTION
  · simp only [if_pos hs, mapSyms]
    rw [get?_mapv]
    simp only [Except.map]
    rw [← insert_mapv]
    cases AMap.get? t.sectionSyms s.st_shndx with
    | none => rfl
    | some l => simp [undyn]
  · simp only [if_neg hs, mapSyms]
    rw [get?_mapv]
    cases AMap.get? t.symbols s.st_name with
    | none => simp [Except.map, undyn]
    | some old =>
      simp only [Option.map_some]
      rw [resolve_undyn]
      cases resolve old { sym := s, hash := h, gnuHash := g, reference := p } with
      | none => rfl
      | some x =>
        simp only [Option.map_some, Except.map]
        rw [modify_mapv t.symbols undyn (fun _ => x) (fun _ => undyn x) _ fun _ => rfl]

theorem modify_undyn (t : SymbolTable) (k : Nat) (d : Option SymbolRef) :
    (t.modify (.named k) fun s => { s with dynamic := d }).mapSyms undyn = t.mapSyms undyn := by
  simp only [modify, mapSyms]
  congr 1
  rw [← modify_mapv _ undyn (fun s => { s with dynamic := d }) (fun s => s) k fun _ => rfl]
  generalize t.symbols.map _ = m
  induction m with
  | nil => rfl
  | cons e m ih => obtain ⟨a, b⟩ := e; by_cases h : a = k <;> simp [AMap.modify, h, ih]

theorem new_undyn (d : Bool) : (SymbolTable.new d).mapSyms undyn = SymbolTable.new d := by cases d <;> rfl

theorem get_mapSyms (f : Symbol → Symbol) (t : SymbolTable) (r : SymbolRef) : (t.mapSyms f).get r = (t.get r).map f := by
  cases r with
  | named n => exact get?_mapv _ _ _
  | «section» s i =>
    simp only [get, mapSyms]
    rw [get?_mapv]
    cases AMap.get? t.sectionSyms s <;> simp

theorem addAll_snoc {t t' : SymbolTable} {l : List Add} {a : Add} {t'' : SymbolTable} {r : SymbolRef} (h : t.addAll l = .ok t')
    (h' : t'.addSymbol a.sym a.hash a.gnuHash a.ref = .ok (t'', r)) : t.addAll (l ++ [a]) = .ok t'' := by
  unfold addAll at h ⊢
  rw [foldM'_append, bind_ok]
  exact ⟨t', h, by rw [foldM'_cons, h']; rfl⟩

/-- the reference an addition returns -/
theorem addSymbol_ref {t t' : SymbolTable} {s : Sym} {h g : UInt32} {p : Path} {r : SymbolRef} (hs : stType s.st_info ≠ STT_SECTION)
    (ha : t.addSymbol s h g p = .ok (t', r)) : r = .named s.st_name := by
  unfold addSymbol at ha
  rw [if_neg hs] at ha
  split at ha
  · split at ha
    · cases ha
    · cases ha; rfl
  · cases ha; rfl

theorem addSymbol_get_ref {t t' : SymbolTable} {s : Sym} {h g : UInt32} {p : Path} {r : SymbolRef} (ha : t.addSymbol s h g p = .ok (t', r)) :
    (t'.get r).isSome ∧ ∀ r', (t.get r').isSome → (t'.get r').isSome := by
  unfold addSymbol at ha
  by_cases hs : stType s.st_info = STT_SECTION
  · rw [if_pos hs] at ha
    cases ha
    constructor
    · simp [get, AMap.get?_insert]
    · intro r' hr'
      cases r' with
      | named n => exact hr'
      | «section» x i =>
        simp only [get, AMap.get?_insert] at hr' ⊢
        split
        · next e =>
          subst e
          cases hg : AMap.get? t.sectionSyms s.st_shndx with
          | none => rw [hg] at hr'; simp at hr'
          | some l =>
            rw [hg] at hr'
            simp only [Option.bind_some] at hr'
            rw [isSome_getElem?] at hr'
            simp only [Option.getD_some, Option.bind_some, isSome_getElem?, List.length_append, List.length_cons, List.length_nil]
            omega
        · exact hr'
  · rw [if_neg hs] at ha
    split at ha
    · next old ho =>
      split at ha
      · cases ha
      · cases ha
        constructor
        · simp [get, AMap.get?_modify, ho]
        · intro r' hr'
          cases r' with
          | «section» x i => exact hr'
          | named n =>
            simp only [get, AMap.get?_modify] at hr' ⊢
            split
            · simpa using hr'
            · exact hr'
    · next ho =>
      cases ha
      constructor
      · simp [get, AMap.get?_append, ho, AMap.get?]
      · intro r' hr'
        cases r' with
        | «section» x i => exact hr'
        | named n =>
          simp only [get, AMap.get?_append] at hr' ⊢
          cases hg : AMap.get? t.symbols n with
          | none => rw [hg] at hr'; simp at hr'
          | some x => simp

end SymbolTable

/-- the additions to the symbol table, `ns` being the names of the string table -/
def symAdds (ns : List Name) : List Op → List Add
  | [] => []
  | .sym s _ n path _ :: ops =>
    { sym := { s with st_name := u32 (nameOff ns n) }, hash := elfHash n, gnuHash := elfGnuHash n, ref := path } :: symAdds ns ops
  | _ :: ops => symAdds ns ops

/-- the additions to the dynamic symbol table, `ns` being the names of the dynamic string table -/
def dynAdds (ns : List Name) : List Op → List Add
  | [] => []
  | .dynsym s n path _ :: ops =>
    { sym := { s with st_shndx := SHN_UNDEF, st_value := 0, st_name := u32 (nameOff ns n) }, hash := elfHash n, gnuHash := elfGnuHash n, ref := path } :: dynAdds ns ops
  | _ :: ops => dynAdds ns ops

theorem symAdds_append (ns : List Name) (a b : List Op) : symAdds ns (a ++ b) = symAdds ns a ++ symAdds ns b := by
  induction a with
  | nil => rfl
  | cons op a ih => cases op <;> simp [symAdds, ih]

theorem dynAdds_append (ns : List Name) (a b : List Op) : dynAdds ns (a ++ b) = dynAdds ns a ++ dynAdds ns b := by
  induction a with
  | nil => rfl
  | cons op a ih => cases op <;> simp [dynAdds, ih]

/-- the symbol tables after the calls `ops`; `ns` and `nd` are the names of the string tables -/
structure SymInv (ns nd : List Name) (ops : List Op) (w : Writer) : Prop where
  sym : (SymbolTable.new false).addAll (symAdds ns ops) = .ok (w.symtab.mapSyms SymbolTable.undyn)
  dyn : (SymbolTable.new true).addAll (dynAdds nd ops) = .ok w.dynsym
  sref : ∀ s sec n path r, Op.sym s sec n path r ∈ ops → (w.symtab.get r).isSome ∧ (stType s.st_info ≠ STT_SECTION → r = .named (u32 (nameOff ns n)))
  dref : ∀ s n path r, Op.dynsym s n path r ∈ ops → (w.dynsym.get r).isSome ∧ (stType s.st_info ≠ STT_SECTION → r = .named (u32 (nameOff nd n)))
  link : ∀ r s d, w.symtab.get r = some s → s.dynamic = some d → ∃ n, (n = [] ∨ ImportedIn ops n) ∧ r = .named (u32 (nameOff ns n)) ∧
    ∃ e path, Op.dynsym e n path d ∈ ops

theorem Step.tables {w w' : Writer} {op : Op} (h : Step w op w') (h1 : symNames [op] = []) (h2 : ∀ s n path r, op ≠ .dynsym s n path r) :
    w'.symtab = w.symtab ∧ w'.dynsym = w.dynsym := by
  cases h with
  | push h =>
    unfold Writer.pushSection at h
    simp only at h
    split at h
    · cases h; exact ⟨rfl, rfl⟩
    · split at h
      · cases h
      · split at h
        · cases h; exact ⟨rfl, rfl⟩
        · split at h
          · cases h
          · cases h; exact ⟨rfl, rfl⟩
  | sym h => simp [symNames] at h1
  | dynsym h => exact absurd rfl (h2 _ _ _ _)
  | reloc h =>
    simp only [Writer.addRelocation] at h
    split at h
    · cases h
    · rw [modChunk_rest h]; exact ⟨rfl, rfl⟩
  | needed => exact ⟨rfl, rfl⟩

theorem Holds.offset {t : StringTable} {ns ns' : List Name} (h : Holds t ns) {n : Name} (hp : intern ns n <+: ns') :
    (t.getOrCreate n).1.offset = nameOff ns' n := by
  rw [nameOff_prefix hp (mem_intern ns n)]
  exact (h.entry n).2

theorem Spec.ImportedIn.snoc {ops : List Op} {op : Op} {n : Name} (h : ImportedIn ops n) : ImportedIn (ops ++ [op]) n := by
  obtain ⟨a, e, path, d, b, h1, h2⟩ := h
  exact ⟨a, e, path, d, b ++ [op], by rw [h1]; simp, h2⟩

theorem mem_symNames_iff {ops : List Op} {n : Name} : n ∈ symNames ops ↔ ∃ s sec path r, Op.sym s sec n path r ∈ ops := by
  induction ops with
  | nil => simp [symNames]
  | cons op ops ih =>
    cases op with
    | sym s sec m path r =>
      simp only [symNames, List.mem_cons, ih]
      constructor
      · rintro (rfl | ⟨s', sec', p', r', hm⟩)
        · exact ⟨s, sec, path, r, .inl rfl⟩
        · exact ⟨s', sec', p', r', .inr hm⟩
      · rintro ⟨s', sec', p', r', h | hm⟩
        · cases h; exact .inl rfl
        · exact .inr ⟨s', sec', p', r', hm⟩
    | _ => simp [symNames, ih]

theorem SymInv.frame {ns nd : List Name} {ops : List Op} {op : Op} {w w' : Writer} (hI : SymInv ns nd ops w) (h : Step w op w')
    (h1 : symNames [op] = []) (h2 : ∀ s n path r, op ≠ .dynsym s n path r) : SymInv ns nd (ops ++ [op]) w' := by
  obtain ⟨e1, e2⟩ := h.tables h1 h2
  have a1 : symAdds ns [op] = [] := by cases op <;> simp [symAdds, symNames] at h1 ⊢
  have a2 : dynAdds nd [op] = [] := by cases op with
    | dynsym s n p r => exact absurd rfl (h2 s n p r)
    | _ => rfl
  refine ⟨?_, ?_, ?_, ?_, ?_⟩
  · rw [symAdds_append, a1, List.append_nil, e1]; exact hI.sym
  · rw [dynAdds_append, a2, List.append_nil, e2]; exact hI.dyn
  · intro s sec n path r hm
    rw [List.mem_append, List.mem_singleton] at hm
    rcases hm with hm | hm
    · rw [e1]; exact hI.sref _ _ _ _ _ hm
    · subst hm; simp [symNames] at h1
  · intro s n path r hm
    rw [List.mem_append, List.mem_singleton] at hm
    rcases hm with hm | hm
    · rw [e2]; exact hI.dref _ _ _ _ hm
    · exact absurd hm.symm (h2 _ _ _ _)
  · intro r s d hr hd
    rw [e1] at hr
    obtain ⟨n, hn, hk, e, path, hm⟩ := hI.link r s d hr hd
    exact ⟨n, hn.imp_right (·.snoc), hk, e, path, by simp [hm]⟩

theorem SymbolTable.addSymbol_dynamic {t t' : SymbolTable} {s : Sym} {h g : UInt32} {p : Path} {r r' : SymbolRef} {x : Symbol} {d : SymbolRef}
    (ha : t.addSymbol s h g p = .ok (t', r)) (hx : t'.get r' = some x) (hd : x.dynamic = some d) :
    ∃ y, t.get r' = some y ∧ y.dynamic = some d := by
  unfold SymbolTable.addSymbol at ha
  by_cases hs : stType s.st_info = STT_SECTION
  · rw [if_pos hs] at ha
    cases ha
    cases r' with
    | named n => exact ⟨x, hx, hd⟩
    | «section» k i =>
      simp only [SymbolTable.get, AMap.get?_insert] at hx ⊢
      split at hx
      · next e =>
        subst e
        simp only [Option.bind_some, List.getElem?_append] at hx
        split at hx
        · cases hg : AMap.get? t.sectionSyms s.st_shndx with
          | none => rw [hg] at hx; simp at hx
          | some l => rw [hg] at hx; exact ⟨x, hx, hd⟩
        · have := List.mem_of_getElem? hx
          rw [List.mem_singleton] at this
          subst this; cases hd
      · exact ⟨x, hx, hd⟩
  · rw [if_neg hs] at ha
    split at ha
    · next old ho =>
      split at ha
      · cases ha
      · next y hy =>
        cases ha
        cases r' with
        | «section» k i => exact ⟨x, hx, hd⟩
        | named n =>
          simp only [SymbolTable.get, AMap.get?_modify] at hx ⊢
          split at hx
          · next e =>
            subst e
            rw [ho] at hx ⊢
            simp only [Option.map_some, Option.some.injEq] at hx
            subst hx
            refine ⟨old, rfl, ?_⟩
            unfold SymbolTable.resolve at hy
            split at hy
            · cases hy
            · split at hy
              · cases hy; exact hd
              · split at hy
                · cases hy; exact hd
                · cases hy; exact hd
          · exact ⟨x, hx, hd⟩
    · next ho =>
      cases ha
      cases r' with
      | «section» k i => exact ⟨x, hx, hd⟩
      | named n =>
        simp only [SymbolTable.get, AMap.get?_append] at hx ⊢
        cases hg : AMap.get? t.symbols n with
        | some z => rw [hg] at hx; exact ⟨x, by simpa using hx, hd⟩
        | none =>
          rw [hg] at hx
          simp only [Option.none_or, AMap.get?] at hx
          split at hx
          · cases hx; cases hd
          · cases hx

theorem SymbolTable.modify_isSome {t : SymbolTable} {r r' : SymbolRef} {f : Symbol → Symbol} (h : (t.get r').isSome) :
    ((t.modify r f).get r').isSome := by
  cases r with
  | named n =>
    cases r' with
    | «section» k i => exact h
    | named m =>
      simp only [SymbolTable.get, SymbolTable.modify, AMap.get?_modify] at h ⊢
      split
      · simpa using h
      · exact h
  | «section» k i =>
    cases r' with
    | named m => exact h
    | «section» k' i' =>
      simp only [SymbolTable.get, SymbolTable.modify, AMap.get?_modify] at h ⊢
      split
      · next e =>
        subst e
        cases hg : AMap.get? t.sectionSyms k with
        | none => rw [hg] at h; simp at h
        | some l => rw [hg] at h; simpa using h
      · exact h

theorem Hist.syms {opts : Options} {ops : List Op} {w : Writer} (h : Hist opts ops w) {f : Name} (hf : opts.dynamicLinker.file = some f)
    {ns nd : List Name} (hs : internAll [[]] (symNames ops) <+: ns) (hd : internAll [[]] (f :: dynNames ops) <+: nd) : SymInv ns nd ops w := by
  induction h with
  | init h =>
    simp only [Writer.new, bind_ok] at h
    obtain ⟨f', hf', h⟩ := h
    cases h
    refine ⟨?_, rfl, ?_, ?_, ?_⟩
    · exact congrArg Except.ok (SymbolTable.new_undyn false).symm
    · simp
    · simp
    · intro r s d hr hd
      have : s = SymbolTable.nullSymbol := by
        cases r with
        | named n =>
          have hr : AMap.get? [(0, SymbolTable.nullSymbol)] n = some s := hr
          simp only [AMap.get?] at hr
          split at hr
          · cases hr; rfl
          · cases hr
        | «section» k i => have hr : (AMap.get? ([] : List (Nat × List Symbol)) k).bind (·[i]?) = some s := hr; simp [AMap.get?] at hr
      subst this; cases hd
  | @step ops op w w' h hstep ih =>
    obtain ⟨f', hf', hh1, hh2⟩ := h.strs
    rw [hf] at hf'; cases hf'
    have p1 : internAll [[]] (symNames ops) <+: ns := by
      rw [symNames_append, internAll_append] at hs
      exact (internAll_prefix _ _).trans hs
    have p2 : internAll [[]] (f :: dynNames ops) <+: nd := by
      rw [dynNames_append, ← List.cons_append, internAll_append] at hd
      exact (internAll_prefix _ _).trans hd
    have hI := ih p1 p2
    rw [symNames_append, internAll_append] at hs
    rw [dynNames_append, ← List.cons_append, internAll_append] at hd
    cases hstep with
    | push h => exact hI.frame (.push h) rfl (by simp)
    | reloc h => exact hI.frame (.reloc h) rfl (by simp)
    | needed => exact hI.frame .needed rfl (by simp)
    | @sym _ s sec n path r h =>
      simp only [Writer.addSymbol] at h
      have ho : (w.symstr.getOrCreate n).1.offset = nameOff ns n := Holds.offset hh1 hs
      rw [ho] at h
      split at h
      · cases h
      · next t r1 ha =>
        simp only [bind_ok] at h
        obtain ⟨w1, h1, h2⟩ := h
        cases h2
        have hr := noteSymbol_rest h1
        have e1 : w'.symtab = t := by rw [hr]
        have e2 : w'.dynsym = w.dynsym := by rw [hr]
        obtain ⟨g1, g2⟩ := SymbolTable.addSymbol_get_ref ha
        refine ⟨?_, ?_, ?_, ?_, ?_⟩
        · rw [symAdds_append, e1]
          refine SymbolTable.addAll_snoc (r := r) hI.sym ?_
          rw [SymbolTable.addSymbol_undyn, ha]; rfl
        · rw [dynAdds_append, e2]; simpa [dynAdds] using hI.dyn
        · intro s' sec' n' path' r' hm
          rw [e1]
          rw [List.mem_append, List.mem_singleton] at hm
          rcases hm with hm | hm
          · obtain ⟨a, b⟩ := hI.sref _ _ _ _ _ hm
            exact ⟨g2 _ a, b⟩
          · cases hm
            exact ⟨g1, fun hne => SymbolTable.addSymbol_ref (by exact hne) ha⟩
        · intro s' n' path' r' hm
          rw [e2]
          rw [List.mem_append, List.mem_singleton] at hm
          rcases hm with hm | hm
          · exact hI.dref _ _ _ _ hm
          · cases hm
        · intro r' x d hx hxd
          rw [e1] at hx
          obtain ⟨y, hy, hyd⟩ := SymbolTable.addSymbol_dynamic ha hx hxd
          obtain ⟨m, hm, hk, e, p, hop⟩ := hI.link _ _ _ hy hyd
          exact ⟨m, hm.imp_right (·.snoc), hk, e, p, by simp [hop]⟩
    | @dynsym _ s n path r h =>
      simp only [Writer.addDynSymbol] at h
      have ho : (w.dynstr.getOrCreate n).1.offset = nameOff nd n := Holds.offset hh2 hd
      rw [ho] at h
      split at h
      · cases h
      · next t r1 ha =>
        obtain ⟨g1, g2⟩ := SymbolTable.addSymbol_get_ref ha
        have key : w'.dynsym = t ∧ r = r1 ∧ (w'.symtab = w.symtab ∨ ∃ e, w.symstr.get n = some e ∧
            w'.symtab = w.symtab.modify (.named (u32 e.offset)) fun s => { s with dynamic := some r1 }) := by
          split at h
          · cases h; exact ⟨rfl, rfl, .inl rfl⟩
          · next e he =>
            split at h
            · cases h
            · cases h; exact ⟨rfl, rfl, .inr ⟨e, he, rfl⟩⟩
        obtain ⟨e2, rfl, e1⟩ := key
        have eu : w'.symtab.mapSyms SymbolTable.undyn = w.symtab.mapSyms SymbolTable.undyn := by
          rcases e1 with e1 | ⟨e, _, e1⟩
          · rw [e1]
          · rw [e1, SymbolTable.modify_undyn]
        have mono : ∀ r', (w.symtab.get r').isSome → (w'.symtab.get r').isSome := by
          intro r' hr'
          have := congrArg (fun t => (t.get r').isSome) eu
          simp only [SymbolTable.get_mapSyms, Option.isSome_map] at this
          rw [this]; exact hr'
        refine ⟨?_, ?_, ?_, ?_, ?_⟩
        · rw [symAdds_append, eu]; simpa [symAdds] using hI.sym
        · rw [dynAdds_append, e2]
          exact SymbolTable.addAll_snoc (r := r) hI.dyn ha
        · intro s' sec' n' path' r' hm
          rw [List.mem_append, List.mem_singleton] at hm
          rcases hm with hm | hm
          · obtain ⟨a, b⟩ := hI.sref _ _ _ _ _ hm
            exact ⟨mono _ a, b⟩
          · cases hm
        · intro s' n' path' r' hm
          rw [e2]
          rw [List.mem_append, List.mem_singleton] at hm
          rcases hm with hm | hm
          · obtain ⟨a, b⟩ := hI.dref _ _ _ _ hm
            exact ⟨g2 _ a, b⟩
          · cases hm
            exact ⟨g1, fun hne => SymbolTable.addSymbol_ref (by exact hne) ha⟩
        · intro r' x d hx hxd
          have old : ∀ y, w.symtab.get r' = some y → y.dynamic = some d → ∃ m, (m = [] ∨ ImportedIn (ops ++ [Op.dynsym s n path r]) m) ∧
              r' = .named (u32 (nameOff ns m)) ∧ ∃ e p, Op.dynsym e m p d ∈ ops ++ [Op.dynsym s n path r] := by
            intro y hy hyd
            obtain ⟨m, hm, hk, e, p, hop⟩ := hI.link _ _ _ hy hyd
            exact ⟨m, hm.imp_right (·.snoc), hk, e, p, by simp [hop]⟩
          rcases e1 with e1 | ⟨e, he, e1⟩
          · rw [e1] at hx; exact old x hx hxd
          · rw [e1] at hx
            cases r' with
            | «section» k i => exact old x hx hxd
            | named m =>
              simp only [SymbolTable.get, SymbolTable.modify, AMap.get?_modify] at hx
              split at hx
              · next em =>
                subst em
                cases hg : AMap.get? w.symtab.symbols (u32 e.offset) with
                | none => rw [hg] at hx; simp at hx
                | some y =>
                  rw [hg] at hx
                  simp only [Option.map_some, Option.some.injEq] at hx
                  subst hx
                  cases hxd
                  have hn : n ∈ internAll [[]] (symNames ops) := by
                    apply Classical.byContradiction
                    intro hn
                    simp [StringTable.get, hh1.get?_not_mem hn] at he
                  refine ⟨n, ?_, ?_, s, path, by simp⟩
                  · rw [mem_internAll] at hn
                    rcases hn with hn | hn
                    · exact .inl (by simpa using hn)
                    · exact .inr ⟨ops, s, path, r, [], rfl, mem_symNames_iff.1 hn⟩
                  · rw [StringTable.get, hh1.get?_mem hn] at he
                    simp only [Option.map_some, Option.some.injEq] at he
                    subst he
                    rw [nameOff_prefix p1 hn]; rfl
              · exact old x hx hxd

/-- what holds for every symbol a sequence of additions makes -/
theorem SymbolTable.addAll_forall {P : SymbolRef → Symbol → Prop} {l : List Add} {t t' : SymbolTable} (h : t.addAll l = .ok t')
    (hnew : ∀ a ∈ l, ¬ a.isSection → P (.named a.sym.st_name) (SymbolTable.ofAdd a))
    (hsec : ∀ a ∈ l, a.isSection → ∀ i, P (.section a.sym.st_shndx i) (SymbolTable.ofAdd a))
    (hres : ∀ a ∈ l, ∀ r old s, P r old → SymbolTable.resolve old (SymbolTable.ofAdd a) = some s → P r s)
    (h0 : ∀ r s, t.get r = some s → P r s) : ∀ r s, t'.get r = some s → P r s := by
  induction l generalizing t with
  | nil => cases h; exact h0
  | cons a l ih =>
    rw [SymbolTable.addAll_cons] at h
    split at h
    · cases h
    · next t1 r1 ha =>
      refine ih h (fun b hb => hnew b (by simp [hb])) (fun b hb => hsec b (by simp [hb])) (fun b hb => hres b (by simp [hb])) ?_
      intro r s hr
      have ha0 := ha
      unfold SymbolTable.addSymbol at ha
      by_cases hs : stType a.sym.st_info = STT_SECTION
      · rw [if_pos hs] at ha
        cases ha
        cases r with
        | named n => exact h0 _ _ hr
        | «section» k i =>
          simp only [SymbolTable.get, AMap.get?_insert] at hr
          split at hr
          · next e =>
            subst e
            simp only [Option.bind_some, List.getElem?_append] at hr
            split at hr
            · cases hg : AMap.get? t.sectionSyms a.sym.st_shndx with
              | none => rw [hg] at hr; simp at hr
              | some l => rw [hg] at hr; exact h0 _ _ (by simpa [SymbolTable.get, hg] using hr)
            · have := List.mem_of_getElem? hr
              rw [List.mem_singleton] at this
              subst this
              exact hsec a (by simp) hs i
          · exact h0 _ _ hr
      · rw [if_neg hs] at ha
        split at ha
        · next old ho =>
          split at ha
          · cases ha
          · next y hy =>
            cases ha
            cases r with
            | «section» k i => exact h0 _ _ hr
            | named n =>
              simp only [SymbolTable.get, AMap.get?_modify] at hr
              split at hr
              · next e =>
                subst e
                rw [ho] at hr
                simp only [Option.map_some, Option.some.injEq] at hr
                subst hr
                exact hres a (by simp) _ old y (h0 _ _ ho) hy
              · exact h0 _ _ hr
        · next ho =>
          cases ha
          cases r with
          | «section» k i => exact h0 _ _ hr
          | named n =>
            simp only [SymbolTable.get, AMap.get?_append] at hr
            cases hg : AMap.get? t.symbols n with
            | some z => rw [hg] at hr; exact h0 _ _ (by simpa [SymbolTable.get, hg] using hr)
            | none =>
              rw [hg] at hr
              simp only [Option.none_or, AMap.get?] at hr
              split at hr
              · next e => cases hr; subst e; exact hnew a (by simp) hs
              · cases hr

/-- `resolve` keeps everything but the ELF symbol, and its name -/
theorem SymbolTable.resolve_keeps {old new s : Symbol} (h : SymbolTable.resolve old new = some s) :
    s = { old with sym := s.sym } ∧ s.sym.st_name = old.sym.st_name := by
  unfold SymbolTable.resolve at h
  split at h
  · cases h
  · split at h
    · cases h; exact ⟨rfl, rfl⟩
    · split at h
      · cases h; exact ⟨rfl, rfl⟩
      · cases h; exact ⟨rfl, rfl⟩

/-- nothing `compute_sections` fills in is set -/
def Symbol.Blank (s : Symbol) : Prop := s.inGot = none ∧ s.inPlt = none ∧ s.inGotPlt = none ∧ s.relocationOffset = none

/-- the symbol of the name at offset `k` of a string table with the names `ns` -/
def Symbol.OfName (ns : List Name) (k : Nat) (s : Symbol) : Prop :=
  ∃ n ∈ ns, k = u32 (nameOff ns n) ∧ s.sym.st_name = k ∧ (n ≠ [] → s.hash = elfHash n ∧ s.gnuHash = elfGnuHash n)

theorem new_get {d : Bool} {r : SymbolRef} {s : Symbol} (h : (SymbolTable.new d).get r = some s) : r = .named 0 ∧ s = SymbolTable.nullSymbol := by
  cases r with
  | named n =>
    have h : AMap.get? [(0, SymbolTable.nullSymbol)] n = some s := by cases d <;> exact h
    simp only [AMap.get?] at h
    split at h
    · next e => cases h; exact ⟨by rw [e], rfl⟩
    · cases h
  | «section» k i =>
    have h : (AMap.get? ([] : List (Nat × List Symbol)) k).bind (·[i]?) = some s := by cases d <;> exact h
    simp [AMap.get?] at h

theorem nameOff_nil {ns : List Name} (h : ns.head? = some []) : nameOff ns [] = 0 := by
  cases ns with
  | nil => cases h
  | cons a l => cases h; simp [nameOff, StringTable.total]

/-- every symbol of a table built from named additions -/
theorem addAll_facts {d : Bool} {ns : List Name} {l : List Add} {t : SymbolTable} (h : (SymbolTable.new d).addAll l = .ok t)
    (hh : ns.head? = some [])
    (hl : ∀ a ∈ l, ¬ a.isSection → ∃ n ∈ ns, a.sym.st_name = u32 (nameOff ns n) ∧ a.hash = elfHash n ∧ a.gnuHash = elfGnuHash n) :
    (∀ r s, t.get r = some s → s.Blank) ∧ (∀ k s, t.get (.named k) = some s → s.OfName ns k) ∧ (AMap.keys t.symbols).Nodup := by
  refine ⟨?_, ?_, ?_⟩
  · refine SymbolTable.addAll_forall (P := fun _ s => s.Blank) h ?_ ?_ ?_ ?_
    · intro a _ _; exact ⟨rfl, rfl, rfl, rfl⟩
    · intro a _ _ _; exact ⟨rfl, rfl, rfl, rfl⟩
    · intro a _ r old s ho hr
      have := (SymbolTable.resolve_keeps hr).1
      rw [this]; exact ho
    · intro r s hr
      obtain ⟨_, rfl⟩ := new_get hr
      exact ⟨rfl, rfl, rfl, rfl⟩
  · have := SymbolTable.addAll_forall (P := fun r s => ∀ k, r = .named k → s.OfName ns k) h ?_ ?_ ?_ ?_
    · exact fun k s hk => this _ s hk k rfl
    · intro a ha hs k hk
      obtain ⟨n, hn, h1, h2, h3⟩ := hl a ha hs
      cases hk
      exact ⟨n, hn, h1, rfl, fun _ => ⟨h2, h3⟩⟩
    · intro a _ _ _ _ hk; cases hk
    · intro a _ r old s ho hr k hk
      obtain ⟨h1, h2⟩ := SymbolTable.resolve_keeps hr
      obtain ⟨n, hn, e1, e2, e3⟩ := ho k hk
      exact ⟨n, hn, e1, h2.trans e2, by rw [h1]; exact e3⟩
    · intro r s hr k hk
      obtain ⟨e, rfl⟩ := new_get hr
      rw [hk] at e; cases e
      refine ⟨[], List.mem_of_mem_head? hh, ?_, rfl, fun h => absurd rfl h⟩
      rw [nameOff_nil hh]; rfl
  · exact SymbolTable.addAll_keys_nodup (by cases d <;> decide) h

theorem mem_symAdds {ns : List Name} {ops : List Op} {a : Add} (h : a ∈ symAdds ns ops) : ∃ s sec n path r, Op.sym s sec n path r ∈ ops ∧
    a = { sym := { s with st_name := u32 (nameOff ns n) }, hash := elfHash n, gnuHash := elfGnuHash n, ref := path } := by
  induction ops with
  | nil => cases h
  | cons op ops ih =>
    cases op with
    | sym s sec n path r =>
      simp only [symAdds, List.mem_cons] at h
      rcases h with h | h
      · exact ⟨s, sec, n, path, r, by simp, h⟩
      · obtain ⟨s, sec, n, path, r, hm, e⟩ := ih h; exact ⟨s, sec, n, path, r, by simp [hm], e⟩
    | _ => obtain ⟨s, sec, n, path, r, hm, e⟩ := ih h; exact ⟨s, sec, n, path, r, by simp [hm], e⟩

theorem mem_dynAdds {ns : List Name} {ops : List Op} {a : Add} (h : a ∈ dynAdds ns ops) : ∃ s n path r, Op.dynsym s n path r ∈ ops ∧
    a = { sym := { s with st_shndx := SHN_UNDEF, st_value := 0, st_name := u32 (nameOff ns n) }, hash := elfHash n, gnuHash := elfGnuHash n, ref := path } := by
  induction ops with
  | nil => cases h
  | cons op ops ih =>
    cases op with
    | dynsym s n path r =>
      simp only [dynAdds, List.mem_cons] at h
      rcases h with h | h
      · exact ⟨s, n, path, r, by simp, h⟩
      · obtain ⟨s, n, path, r, hm, e⟩ := ih h; exact ⟨s, n, path, r, by simp [hm], e⟩
    | _ => obtain ⟨s, n, path, r, hm, e⟩ := ih h; exact ⟨s, n, path, r, by simp [hm], e⟩

theorem mem_symNames {ops : List Op} {s : Sym} {sec : Option SectionRef} {n : Name} {path : Path} {r : SymbolRef}
    (h : Op.sym s sec n path r ∈ ops) : n ∈ symNames ops := by
  induction ops with
  | nil => cases h
  | cons op ops ih =>
    rw [List.mem_cons] at h
    rcases h with h | h
    · subst h; simp [symNames]
    · cases op <;> simp [symNames, ih h]

theorem mem_dynNames {ops : List Op} {s : Sym} {n : Name} {path : Path} {r : SymbolRef}
    (h : Op.dynsym s n path r ∈ ops) : n ∈ dynNames ops := by
  induction ops with
  | nil => cases h
  | cons op ops ih =>
    rw [List.mem_cons] at h
    rcases h with h | h
    · subst h; simp [dynNames]
    · cases op <;> simp [dynNames, ih h]

/-- the symbol tables a history leads to -/
structure TableFacts (ns nd : List Name) (ops : List Op) (w : Writer) : Prop where
  symstr : Holds w.symstr ns
  dynstr : Holds w.dynstr nd
  inv : SymInv ns nd ops w
  symNames : ∀ n, n ∈ ns ↔ n = [] ∨ n ∈ symNames ops
  blank : ∀ r s, w.symtab.get r = some s → s.Blank
  named : ∀ k s, w.symtab.get (.named k) = some s → s.OfName ns k
  nodup : (AMap.keys w.symtab.symbols).Nodup
  dynBlank : ∀ r s, w.dynsym.get r = some s → s.Blank
  dynNamed : ∀ k s, w.dynsym.get (.named k) = some s → s.OfName nd k
  dynNodup : (AMap.keys w.dynsym.symbols).Nodup
  dynMem : ∀ n ∈ dynNames ops, n ∈ nd
  pre : internAll [[]] (Dld.symNames ops) <+: ns
  mention : ∀ k s, w.symtab.get (.named k) = some s → k = 0 ∨
    ∃ e sec n path, Op.sym e sec n path (.named k) ∈ ops ∧ stType e.st_info ≠ STT_SECTION
  dynMention : ∀ k s, w.dynsym.get (.named k) = some s → k = 0 ∨
    ∃ e n path, Op.dynsym e n path (.named k) ∈ ops ∧ stType e.st_info ≠ STT_SECTION

/-- every named symbol was added -/
theorem addAll_mention {d : Bool} {l : List Add} {t : SymbolTable} (h : (SymbolTable.new d).addAll l = .ok t) :
    ∀ k s, t.get (.named k) = some s → k = 0 ∨ ∃ a ∈ l, ¬ a.isSection ∧ a.sym.st_name = k := by
  have := SymbolTable.addAll_forall (P := fun r _ => ∀ k, r = .named k → k = 0 ∨ ∃ a ∈ l, ¬ a.isSection ∧ a.sym.st_name = k) h ?_ ?_ ?_ ?_
  · exact fun k s hk => this _ s hk k rfl
  · intro a ha hs k hk; cases hk; exact .inr ⟨a, ha, hs, rfl⟩
  · intro a _ _ _ _ hk; cases hk
  · intro a _ r old s ho _ k hk; exact ho k hk
  · intro r s hr k hk
    obtain ⟨e, rfl⟩ := new_get hr
    rw [hk] at e; cases e; exact .inl rfl

theorem Hist.tableFacts {opts : Options} {ops : List Op} {w : Writer} (h : Hist opts ops w) : ∃ ns nd, TableFacts ns nd ops w := by
  obtain ⟨f, hf, h1, h2⟩ := h.strs
  have hI := h.syms hf (List.prefix_refl _) (List.prefix_refl _)
  obtain ⟨a1, a2, a3⟩ := addAll_facts hI.sym h1.head (by
    intro a ha _
    obtain ⟨s, sec, n, path, r, hm, rfl⟩ := mem_symAdds ha
    exact ⟨n, mem_internAll.2 (.inr (mem_symNames hm)), rfl, rfl, rfl⟩)
  obtain ⟨b1, b2, b3⟩ := addAll_facts hI.dyn h2.head (by
    intro a ha _
    obtain ⟨s, n, path, r, hm, rfl⟩ := mem_dynAdds ha
    exact ⟨n, mem_internAll.2 (.inr (List.mem_cons_of_mem _ (mem_dynNames hm))), rfl, rfl, rfl⟩)
  refine ⟨_, _, h1, h2, hI, ?_, ?_, ?_, ?_, b1, b2, b3, ?_, List.prefix_refl _, ?_, ?_⟩
  · intro n; simp [mem_internAll]
  · intro r s hs
    exact a1 r (SymbolTable.undyn s) (by rw [SymbolTable.get_mapSyms, hs]; rfl)
  · intro k s hs
    exact a2 k (SymbolTable.undyn s) (by rw [SymbolTable.get_mapSyms, hs]; rfl)
  · have : AMap.keys (w.symtab.mapSyms SymbolTable.undyn).symbols = AMap.keys w.symtab.symbols := by
      simp [AMap.keys, SymbolTable.mapSyms]
    rw [← this]; exact a3
  · intro n hn; exact mem_internAll.2 (.inr (List.mem_cons_of_mem _ hn))
  · intro k s hs
    rcases addAll_mention hI.sym k (SymbolTable.undyn s) (by rw [SymbolTable.get_mapSyms, hs]; rfl) with h0 | ⟨a, ha, hs, hk⟩
    · exact .inl h0
    · right
      obtain ⟨e, sec, n, path, r, hm, rfl⟩ := mem_symAdds ha
      have hne : stType e.st_info ≠ STT_SECTION := hs
      have := (hI.sref _ _ _ _ _ hm).2 hne
      have hr : r = .named k := by rw [this]; congr 1
      subst hr
      exact ⟨e, sec, n, path, hm, hne⟩
  · intro k s hs
    rcases addAll_mention hI.dyn k s hs with h0 | ⟨a, ha, hs, hk⟩
    · exact .inl h0
    · right
      obtain ⟨e, n, path, r, hm, rfl⟩ := mem_dynAdds ha
      have hne : stType e.st_info ≠ STT_SECTION := hs
      have := (hI.dref _ _ _ _ hm).2 hne
      have hr : r = .named k := by rw [this]; congr 1
      subst hr
      exact ⟨e, n, path, hm, hne⟩

end Dld
