import Verif.Lemmas.Scan
/-! # The dynamic relocations of `assign_section_addresses` -/
namespace Dld
open Writer Spec

/-- a symbol provided by a shared library, as the loop over the symbol table sees it: its key, its
entry in the dynamic symbol table, the index of that entry, its offsets in `.got` and `.got.plt`, and
its size if it is a data object -/
structure Import where
  key : Nat
  ref : SymbolRef
  index : Nat
  got : Option Nat
  gotPlt : Option Nat
  copy : Option Nat
  deriving DecidableEq, Repr

/-- the import behind a key of the symbol table -/
def importOf (ix : List (Nat × Nat)) (t dt : SymbolTable) (k : Nat) : Option Import :=
  (AMap.get? t.symbols k).bind fun s => s.dynamic.bind fun d => (AMap.get? ix d.st_name).bind fun i => (dt.get d).map fun ds =>
    { key := k, ref := d, index := i, got := s.inGot, gotPlt := s.inGotPlt, copy := if ds.isObject then some ds.sym.st_size else none }

/-- the data objects among imports with their places, the first at `a` -/
def copiesFrom : Nat → List Import → List (Import × Nat × Nat)
  | _, [] => []
  | a, m :: ms => match m.copy with
    | some n => (m, a, n) :: copiesFrom (a + n) ms
    | none => copiesFrom a ms

/-- the end of the space for data objects -/
def copyEnd : Nat → List Import → Nat
  | a, [] => a
  | a, m :: ms => copyEnd (a + m.copy.getD 0) ms

/-- the relocations for `.rela.dyn` -/
def dynRelsFrom : Nat → List Import → List Rela
  | _, [] => []
  | a, m :: ms => (match m.got with | some off => [rela off m.index 6] | none => []) ++
    (match m.copy with | some _ => [rela a m.index 5] | none => []) ++ dynRelsFrom (a + m.copy.getD 0) ms

/-- the imports called through the PLT -/
def called (ms : List Import) : List (Import × Nat) := ms.filterMap fun m => m.gotPlt.map fun o => (m, o)

/-- a symbol without the position of its `JUMP_SLOT` relocation -/
def unrel (s : Symbol) : Symbol := { s with relocationOffset := none }
/-- a symbol without its place -/
def unplace (s : Symbol) : Symbol := { s with sym := { s.sym with st_shndx := 0, st_value := 0 } }

theorem unplace_blind : PlaceBlind unplace := fun _ _ _ => rfl

theorem importOf_view {ix : List (Nat × Nat)} {t t' dt dt' : SymbolTable} (h : t'.view unrel = t.view unrel) (hd : dt'.view unplace = dt.view unplace)
    (k : Nat) : importOf ix t' dt' k = importOf ix t dt k := by
  have h1 := SymbolTable.view_get h (.named k)
  simp only [SymbolTable.get] at h1
  unfold importOf
  cases hx : AMap.get? t'.symbols k with
  | none => rw [hx] at h1; cases hy : AMap.get? t.symbols k with
    | none => rfl
    | some s => rw [hy] at h1; cases h1
  | some s' =>
    rw [hx] at h1
    cases hy : AMap.get? t.symbols k with
    | none => rw [hy] at h1; cases h1
    | some s =>
      rw [hy] at h1
      simp only [Option.map_some, Option.some.injEq] at h1
      have e1 : s'.dynamic = s.dynamic := congrArg (·.dynamic) h1
      have e2 : s'.inGot = s.inGot := congrArg (·.inGot) h1
      have e3 : s'.inGotPlt = s.inGotPlt := congrArg (·.inGotPlt) h1
      simp only [Option.bind_some, e1, e2, e3]
      cases s.dynamic with
      | none => rfl
      | some d =>
        simp only [Option.bind_some]
        cases AMap.get? ix d.st_name with
        | none => rfl
        | some i =>
          simp only [Option.bind_some]
          have h2 := SymbolTable.view_get hd d
          cases hz : dt'.get d with
          | none => rw [hz] at h2; cases hw : dt.get d with
            | none => rfl
            | some x => rw [hw] at h2; cases h2
          | some x' =>
            rw [hz] at h2
            cases hw : dt.get d with
            | none => rw [hw] at h2; cases h2
            | some x =>
              rw [hw] at h2
              simp only [Option.map_some, Option.some.injEq] at h2
              have f1 : x'.sym.st_info = x.sym.st_info := congrArg (·.sym.st_info) h2
              have f2 : x'.sym.st_size = x.sym.st_size := congrArg (·.sym.st_size) h2
              have f3 : x'.isObject = x.isObject := by simp only [Symbol.isObject, f1]
              simp only [Option.map_some, f2, f3]

/-- what one step of the loop does -/
theorem dynRelStep_import {ix : List (Nat × Nat)} {st st' : DynState} {k : Nat} (h : dynRelStep ix st k = .ok st') :
    match importOf ix st.symtab st.dynsym k with
    | none => st' = st
    | some m => st'.dynRels = st.dynRels ++ ((match m.got with | some off => [rela off m.index 6] | none => []) ++
          (match m.copy with | some _ => [rela st.copyRel.size m.index 5] | none => [])) ∧
        st'.pltRels = st.pltRels ++ (match m.gotPlt with | some off => [rela off m.index 7] | none => []) ∧
        st'.copyRel.size = st.copyRel.size + m.copy.getD 0 ∧
        st'.symtab = (match m.gotPlt with
          | some _ => st.symtab.modify (.named k) fun s => { s with relocationOffset := some st.pltRels.length }
          | none => st.symtab) ∧
        st'.dynsym = (match m.copy with
          | some _ => st.dynsym.modify m.ref fun s => { s with sym := { s.sym with st_value := st.copyRel.size } }
          | none => st.dynsym) := by
  simp only [dynRelStep, bind_ok, unwrap_ok] at h
  obtain ⟨sym, hs, h⟩ := h
  unfold importOf
  rw [hs]
  simp only [Option.bind_some]
  cases hd : sym.dynamic with
  | none => rw [hd] at h; cases h; rfl
  | some d =>
    rw [hd] at h
    simp only [bind_ok, unwrap_ok] at h
    obtain ⟨i, hi, ds, hds, h⟩ := h
    have hds' : st.dynsym.get d = some ds := by
      cases hg : sym.inGot <;> rw [hg] at hds <;> exact hds
    simp only [Option.bind_some, hi, hds', Option.map_some]
    cases hg : sym.inGot <;> cases ho : ds.isObject <;> cases hp : sym.inGotPlt <;>
      simp only [hg, ho, hp, if_true, if_false, Bool.false_eq_true, CopyRel.insert, R_X86_64_COPY, R_X86_64_GLOB_DAT, R_X86_64_JUMP_SLOT] at h ⊢ <;>
      cases h <;> simp

/-- the results of the loop over the imports `ms` -/
structure DynFacts (st st' : DynState) (ms : List Import) : Prop where
  tab : st'.symtab.view unrel = st.symtab.view unrel
  dyn : st'.dynsym.view unplace = st.dynsym.view unplace
  dynRels : st'.dynRels = st.dynRels ++ dynRelsFrom st.copyRel.size ms
  pltRels : st'.pltRels = st.pltRels ++ (called ms).map fun e => rela e.2 e.1.index 7
  size : st'.copyRel.size = copyEnd st.copyRel.size ms
  pos : ∀ k s', AMap.get? st'.symtab.symbols k = some s' →
    (∃ j e, (called ms)[j]? = some e ∧ e.1.key = k ∧ s'.relocationOffset = some (st.pltRels.length + j)) ∨
    ((∀ e ∈ called ms, e.1.key ≠ k) ∧
      ∃ s, AMap.get? st.symtab.symbols k = some s ∧ s'.relocationOffset = s.relocationOffset)
  value : ∀ r s', st'.dynsym.get r = some s' →
    (∃ e ∈ copiesFrom st.copyRel.size ms, e.1.ref = r ∧ s'.sym.st_value = e.2.1) ∨
    ((∀ e ∈ copiesFrom st.copyRel.size ms, e.1.ref ≠ r) ∧
      ∃ s, st.dynsym.get r = some s ∧ s'.sym.st_value = s.sym.st_value)

theorem importOf_key {ix : List (Nat × Nat)} {t dt : SymbolTable} {k : Nat} {m : Import} (h : importOf ix t dt k = some m) : m.key = k := by
  unfold importOf at h
  simp only [Option.bind_eq_some_iff, Option.map_eq_some_iff] at h
  obtain ⟨_, _, _, _, _, _, _, _, rfl⟩ := h
  rfl

theorem mem_called {ms : List Import} {e : Import × Nat} : e ∈ called ms ↔ e.1 ∈ ms ∧ e.1.gotPlt = some e.2 := by
  simp only [called, List.mem_filterMap, Option.map_eq_some_iff]
  constructor
  · rintro ⟨m, hm, o, ho, rfl⟩; exact ⟨hm, ho⟩
  · rintro ⟨h1, h2⟩; exact ⟨e.1, h1, e.2, h2, rfl⟩

theorem dynRelStep_loop {ix : List (Nat × Nat)} {st st' : DynState} {ks : List Nat} (hn : ks.Nodup)
    (h : foldM' (dynRelStep ix) st ks = .ok st') : DynFacts st st' (ks.filterMap (importOf ix st.symtab st.dynsym)) := by
  induction ks generalizing st with
  | nil =>
    cases h
    refine ⟨rfl, rfl, by simp [dynRelsFrom], by simp [called], rfl, ?_, ?_⟩
    · intro k s' hs; exact .inr ⟨by simp [called], s', hs, rfl⟩
    · intro r s' hs; exact .inr ⟨by simp [copiesFrom], s', hs, rfl⟩
  | cons k ks ih =>
    rw [foldM'_cons, bind_ok] at h
    obtain ⟨st1, h1, h2⟩ := h
    rw [List.nodup_cons] at hn
    have F := ih hn.2 h2
    obtain ⟨v1, v2⟩ := dynRelStep_view (F := unrel) (G := unplace) (fun _ _ => rfl) unplace_blind h1
    have him : ks.filterMap (importOf ix st1.symtab st1.dynsym) = ks.filterMap (importOf ix st.symtab st.dynsym) := by
      congr 1; funext k'; exact importOf_view v1 v2 k'
    have hkeys : ∀ m ∈ ks.filterMap (importOf ix st.symtab st.dynsym), m.key ≠ k := by
      intro m hm
      rw [List.mem_filterMap] at hm
      obtain ⟨k', hk', he⟩ := hm
      rw [importOf_key he]; rintro rfl; exact hn.1 hk'
    have hstep := dynRelStep_import h1
    rw [List.filterMap_cons]
    cases hm : importOf ix st.symtab st.dynsym k with
    | none =>
      rw [hm] at hstep
      simp only at hstep
      subst hstep
      exact ⟨F.tab, F.dyn, F.dynRels, F.pltRels, F.size, F.pos, F.value⟩
    | some m =>
      rw [hm] at hstep
      simp only at hstep
      obtain ⟨a1, a2, a3, a4, a5⟩ := hstep
      obtain ⟨f1, f2, f3, f4, f5, f6, f7⟩ := F
      rw [him] at f3 f4 f5 f6 f7
      have hmk := importOf_key hm
      refine ⟨f1.trans v1, f2.trans v2, ?_, ?_, ?_, ?_, ?_⟩
      · rw [f3, a1, a3]; simp only [dynRelsFrom, List.append_assoc]
      · rw [f4, a2]
        cases hg : m.gotPlt <;> simp [called, hg]
      · rw [f5, a3]; rfl
      · intro k' s' hs'
        rcases f6 k' s' hs' with ⟨j, e, hj, he, ho⟩ | ⟨hno, s1, hs1, ho⟩
        · left
          cases hg : m.gotPlt with
          | none => exact ⟨j, e, by simpa [called, hg] using hj, he, by simpa [a2, hg] using ho⟩
          | some off =>
            refine ⟨j + 1, e, by simpa [called, hg] using hj, he, ?_⟩
            rw [ho, a2, hg]; simp; omega
        · cases hg : m.gotPlt with
          | none =>
            right
            rw [a4, hg] at hs1
            exact ⟨by simpa [called, hg] using hno, s1, hs1, ho⟩
          | some off =>
            rw [a4, hg] at hs1
            simp only [SymbolTable.modify, AMap.get?_modify] at hs1
            split at hs1
            · next e =>
              left
              subst e
              cases hx : AMap.get? st.symtab.symbols k with
              | none => rw [hx] at hs1; cases hs1
              | some x =>
                rw [hx] at hs1
                simp only [Option.map_some, Option.some.injEq] at hs1
                refine ⟨0, (m, off), by simp [called, hg], hmk, ?_⟩
                rw [ho, ← hs1]; rfl
            · next e =>
              right
              refine ⟨?_, s1, hs1, ho⟩
              intro e' he'
              simp only [called, List.filterMap_cons, hg, Option.map_some, List.mem_cons] at he'
              rcases he' with rfl | he'
              · rw [hmk]; exact fun e' => e e'
              · exact hno e' he'
      · intro r s' hs'
        rw [a3] at f7
        rcases f7 r s' hs' with ⟨e, he, hr, hv⟩ | ⟨hno, s1, hs1, hv⟩
        · left
          cases hc : m.copy with
          | none => rw [hc] at he; exact ⟨e, by simpa [copiesFrom, hc] using he, hr, hv⟩
          | some n => rw [hc] at he; exact ⟨e, by simp only [copiesFrom, hc]; exact List.mem_cons_of_mem _ he, hr, hv⟩
        · cases hc : m.copy with
          | none =>
            right
            rw [a5, hc] at hs1
            rw [hc] at hno
            exact ⟨by simpa [copiesFrom, hc] using hno, s1, hs1, hv⟩
          | some n =>
            rw [a5, hc] at hs1
            rw [hc] at hno
            simp only [SymbolTable.get_modify] at hs1
            split at hs1
            · next e =>
              left
              refine ⟨(m, st.copyRel.size, n), by simp [copiesFrom, hc], e, ?_⟩
              cases hx : st.dynsym.get r with
              | none => rw [hx] at hs1; cases hs1
              | some x =>
                rw [hx] at hs1
                simp only [Option.map_some, Option.some.injEq] at hs1
                rw [hv, ← hs1]
            · next e =>
              right
              refine ⟨?_, s1, hs1, hv⟩
              intro e' he'
              simp only [copiesFrom, hc, List.mem_cons] at he'
              rcases he' with rfl | he'
              · exact fun e' => e e'
              · exact hno e' he'

end Dld
