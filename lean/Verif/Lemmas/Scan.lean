import Verif.Lemmas.Symtab
import Verif.Spec.Got
/-! # `scan_relocations` -/
namespace Dld
open Writer Spec

theorem mapAccumM_append {ε σ α β : Type} {f : σ → α → Except ε (σ × β)} {s s1 s2 : σ} {l l' : List α} {bs bs' : List β}
    (h1 : mapAccumM f s l = .ok (s1, bs)) (h2 : mapAccumM f s1 l' = .ok (s2, bs')) :
    mapAccumM f s (l ++ l') = .ok (s2, bs ++ bs') := by
  induction l generalizing s bs with
  | nil => cases h1; exact h2
  | cons a l ih =>
    rw [mapAccumM_cons] at h1
    obtain ⟨t, b, t', bs1, e1, e2, e3⟩ := h1
    cases e3
    rw [List.cons_append, List.cons_append, mapAccumM_cons]
    exact ⟨t, b, s2, bs1 ++ bs', e1, ih e2, rfl⟩

theorem mapAccumM_flatMap {ε σ α β A B : Type} {f : σ → α → Except ε (σ × β)} {g : σ → A → Except ε (σ × B)} {ga : A → List α} {gb : B → List β}
    (hg : ∀ s a s' b, g s a = .ok (s', b) → mapAccumM f s (ga a) = .ok (s', gb b)) {s s' : σ} {l : List A} {bs : List B}
    (h : mapAccumM g s l = .ok (s', bs)) : mapAccumM f s (l.flatMap ga) = .ok (s', bs.flatMap gb) := by
  induction l generalizing s bs with
  | nil => cases h; rfl
  | cons a l ih =>
    rw [mapAccumM_cons] at h
    obtain ⟨t, b, t', bs1, e1, e2, e3⟩ := h
    cases e3
    rw [List.flatMap_cons, List.flatMap_cons]
    exact mapAccumM_append (hg _ _ _ _ e1) (ih e2)

/-- the scan as one pass over all relocations -/
theorem scan_flat {w w' : Writer} (h : w.scanRelocations = .ok w') :
    mapAccumM scanOne { symtab := w.symtab, plt := w.plt, gotPlt := w.gotPlt, gotLen := w.gotLen } (relocsOf w) =
      .ok ({ symtab := w'.symtab, plt := w'.plt, gotPlt := w'.gotPlt, gotLen := w'.gotLen }, relocsOf w') := by
  simp only [scanRelocations, bind_ok, Prod.exists] at h
  obtain ⟨st, secs, h1, h2⟩ := h
  cases h2
  refine mapAccumM_flatMap ?_ h1
  intro s a s' b h
  simp only [scanSection, bind_ok, Prod.exists] at h
  obtain ⟨s1, cs, h1, h2⟩ := h
  cases h2
  refine mapAccumM_flatMap ?_ h1
  intro s a s' b h
  simp only [scanChunk, bind_ok, Prod.exists] at h
  obtain ⟨s1, cs, h1, h2⟩ := h
  cases h2
  exact h1

theorem needsGot_iff (rel : Rela) : needsGot (u32 rel.r_info) = true ↔ UsesGot rel := by
  have : UsesGot rel ↔ u32 rel.r_info ∈ gotTypes := Iff.rfl
  rw [this]
  generalize u32 rel.r_info = t
  simp only [needsGot, gotTypes, Bool.or_eq_true, beq_iff_eq, List.mem_cons, List.not_mem_nil, or_false, R_X86_64_GOT32, R_X86_64_GOTPCREL,
    R_X86_64_GOTOFF64, R_X86_64_GOTPC32, R_X86_64_GOTPCRELX, R_X86_64_REX_GOTPCRELX, R_X86_64_TLSGD, R_X86_64_GOTTPOFF]
  omega

/-- a symbol without the results of the scan -/
def unscan (s : Symbol) : Symbol := { s with inGot := none, inPlt := none, inGotPlt := none }

theorem unscan_blind : ScanBlind unscan := fun _ _ _ _ => ⟨rfl, rfl⟩

/-- a relocation after the scan: calls of symbols no library provides become direct -/
def scanned (t : SymbolTable) (e : Rela × SymbolRef) : Rela × SymbolRef :=
  if UsesPlt e.1 ∧ ¬ Imported t e.2 then ({ e.1 with r_info := e.1.r_info - 4 + 2 }, e.2) else e

/-- the first relocation of a symbol that refers to the GOT -/
def firstUse (l : List (Rela × SymbolRef)) (r : SymbolRef) : Option Rela :=
  (l.find? fun d => decide (d.2 = r ∧ UsesGot d.1)).map (·.1)

/-- the number of GOT slots a symbol gets -/
def slotsFor (t : SymbolTable) (l : List (Rela × SymbolRef)) (r : SymbolRef) : Nat :=
  if (firstUse l r).map relType = some 19 ∧ ThreadLocal t r then 2 else 1

/-- the state of the scan after the relocations `done`, `t0` being the symbol table before -/
structure ScanInv (t0 : SymbolTable) (done : List (Rela × SymbolRef)) (ks : List SymbolRef) (gs : List (SymbolRef × Nat × Nat))
    (st : ScanState) : Prop where
  tab : st.symtab.view unscan = t0.view unscan
  has : ∀ e ∈ done, UsesGot e.1 ∨ UsesPlt e.1 → (t0.get e.2).isSome
  nodup : ks.Nodup
  plt : st.plt = ks.zipIdx
  gotPlt : st.gotPlt = ks.zipIdx.map fun e => (e.1, (e.2 + 3) * 8)
  calls : ∀ r, r ∈ ks ↔ ∃ rel, (rel, r) ∈ done ∧ UsesPlt rel ∧ Imported t0 r
  inPlt : ∀ r s, st.symtab.get r = some s → s.inPlt = AMap.get? st.plt r ∧ s.inGotPlt = AMap.get? st.gotPlt r
  gotNodup : (gs.map (·.1)).Nodup
  packed : Packed 1 gs st.gotLen
  users : ∀ r, r ∈ gs.map (·.1) ↔ ∃ rel, (rel, r) ∈ done ∧ UsesGot rel
  inGot : ∀ r s, st.symtab.get r = some s → s.inGot = (AMap.get? gs r).map fun e => e.1 * 8
  count : ∀ e ∈ gs, e.2.2 = slotsFor t0 done e.1

theorem get?_zipIdx {κ : Type} [DecidableEq κ] (ks : List κ) (r : κ) (i : Nat) :
    AMap.get? (ks.zipIdx i) r = if r ∈ ks then some (ks.idxOf r + i) else none := by
  induction ks generalizing i with
  | nil => rfl
  | cons a l ih =>
    simp only [List.zipIdx_cons, AMap.get?]
    by_cases h : a = r
    · simp [h]
    · rw [if_neg h, ih]
      have h' : ¬ r = a := fun e => h e.symm
      by_cases hm : r ∈ l
      · have hb : (a == r) = false := by simpa using h
        simp only [List.mem_cons, hm, or_true, if_true, List.idxOf_cons, hb, cond_false]
        congr 1; omega
      · simp [hm, h']

theorem Packed.snoc {κ : Type} {a b n : Nat} {l : List (κ × Nat × Nat)} {k : κ} (h : Packed a l b) (hn : 0 < n) :
    Packed a (l ++ [(k, b, n)]) (b + n) := by
  induction l generalizing a with
  | nil => cases h; exact ⟨rfl, hn, rfl⟩
  | cons e l ih => obtain ⟨k', o, m⟩ := e; exact ⟨h.1, h.2.1, ih h.2.2⟩

theorem SymbolTable.get_modify (t : SymbolTable) (r r' : SymbolRef) (f : Symbol → Symbol) :
    (t.modify r f).get r' = if r = r' then (t.get r').map f else t.get r' := by
  cases r with
  | named n =>
    cases r' with
    | «section» k i => simp [SymbolTable.get, SymbolTable.modify]
    | named m =>
      simp only [SymbolTable.get, SymbolTable.modify, AMap.get?_modify, SymbolRef.named.injEq]
  | «section» k i =>
    cases r' with
    | named m => simp [SymbolTable.get, SymbolTable.modify]
    | «section» k' i' =>
      simp only [SymbolTable.get, SymbolTable.modify, AMap.get?_modify, SymbolRef.section.injEq]
      by_cases h : k = k'
      · subst h
        cases AMap.get? t.sectionSyms k with
        | none => simp
        | some l =>
          simp only [if_true, Option.map_some, Option.bind_some, List.getElem?_modify, true_and]
          by_cases h' : i = i'
          · simp [h']
          · simp [h']
      · simp [h]

theorem imported_view {t t0 : SymbolTable} (h : t.view unscan = t0.view unscan) {r : SymbolRef} {s : Symbol} (hs : t.get r = some s) :
    ∃ s0, t0.get r = some s0 ∧ unscan s = unscan s0 := by
  obtain ⟨s0, h0, e⟩ := SymbolTable.view_get_some h hs
  exact ⟨s0, h0, e⟩

theorem firstUse_snoc_of_mem {done : List (Rela × SymbolRef)} {e : Rela × SymbolRef} {r : SymbolRef} (h : ∃ rel, (rel, r) ∈ done ∧ UsesGot rel) :
    firstUse (done ++ [e]) r = firstUse done r := by
  obtain ⟨rel, hm, hu⟩ := h
  unfold firstUse
  rw [List.find?_append]
  cases hf : done.find? fun d => decide (d.2 = r ∧ UsesGot d.1) with
  | some x => rfl
  | none =>
    rw [List.find?_eq_none] at hf
    exact absurd hu (by simpa using hf _ hm)

theorem firstUse_snoc_self {done : List (Rela × SymbolRef)} {rel : Rela} {r : SymbolRef} (h : ¬ ∃ rel, (rel, r) ∈ done ∧ UsesGot rel)
    (hu : UsesGot rel) : firstUse (done ++ [(rel, r)]) r = some rel := by
  unfold firstUse
  rw [List.find?_append]
  cases hf : done.find? fun d => decide (d.2 = r ∧ UsesGot d.1) with
  | some x =>
    have h1 := List.find?_some hf
    have h2 := List.mem_of_find?_eq_some hf
    simp only [decide_eq_true_eq] at h1
    exact absurd ⟨x.1, h1.1 ▸ h2, h1.2⟩ h
  | none => simp [hu]


theorem users_snoc {done : List (Rela × SymbolRef)} {e : Rela × SymbolRef} {P : Rela → Prop} (h : ¬ P e.1) (r : SymbolRef) :
    (∃ rel, (rel, r) ∈ done ++ [e] ∧ P rel) ↔ ∃ rel, (rel, r) ∈ done ∧ P rel := by
  constructor
  · rintro ⟨rel, hm, hp⟩
    rw [List.mem_append, List.mem_singleton] at hm
    rcases hm with hm | rfl
    · exact ⟨rel, hm, hp⟩
    · exact absurd hp h
  · rintro ⟨rel, hm, hp⟩
    exact ⟨rel, by simp [hm], hp⟩

theorem not_got_plt {rel : Rela} (h : UsesGot rel) : ¬ UsesPlt rel := by
  unfold UsesGot at h; unfold UsesPlt
  intro e
  rw [e] at h
  exact absurd h (by decide)

theorem slotsFor_snoc {t : SymbolTable} {done : List (Rela × SymbolRef)} {e : Rela × SymbolRef} {r : SymbolRef}
    (h : ∃ rel, (rel, r) ∈ done ∧ UsesGot rel) : slotsFor t (done ++ [e]) r = slotsFor t done r := by
  unfold slotsFor
  rw [firstUse_snoc_of_mem h]

variable {t0 : SymbolTable} {done : List (Rela × SymbolRef)} {ks : List SymbolRef} {gs : List (SymbolRef × Nat × Nat)} {st st' : ScanState}

/-- a relocation that does not concern the tables -/
theorem ScanInv.skip (hI : ScanInv t0 done ks gs st) {e : Rela × SymbolRef} (h : UsesGot e.1 ∨ UsesPlt e.1 → (t0.get e.2).isSome)
    (hg : UsesGot e.1 → e.2 ∈ gs.map (·.1)) (hp : UsesPlt e.1 → Imported t0 e.2 → e.2 ∈ ks) : ScanInv t0 (done ++ [e]) ks gs st := by
  refine { hI with has := ?_, calls := ?_, users := ?_, count := ?_ }
  · intro d hd hu
    rw [List.mem_append, List.mem_singleton] at hd
    rcases hd with hd | rfl
    · exact hI.has d hd hu
    · exact h hu
  · intro r
    constructor
    · intro hr
      obtain ⟨rel, h1, h2⟩ := (hI.calls r).1 hr
      exact ⟨rel, by simp [h1], h2⟩
    · rintro ⟨rel, h1, h2, h3⟩
      rw [List.mem_append, List.mem_singleton] at h1
      rcases h1 with h1 | rfl
      · exact (hI.calls r).2 ⟨rel, h1, h2, h3⟩
      · exact hp h2 h3
  · intro r
    constructor
    · intro hr
      obtain ⟨rel, h1, h2⟩ := (hI.users r).1 hr
      exact ⟨rel, by simp [h1], h2⟩
    · rintro ⟨rel, h1, h2⟩
      rw [List.mem_append, List.mem_singleton] at h1
      rcases h1 with h1 | rfl
      · exact (hI.users r).2 ⟨rel, h1, h2⟩
      · exact hg h2
  · intro x hx
    rw [slotsFor_snoc ((hI.users x.1).1 (List.mem_map_of_mem hx))]
    exact hI.count x hx

theorem ScanInv.step (hI : ScanInv t0 done ks gs st) {e e' : Rela × SymbolRef} (h : scanOne st e = .ok (st', e')) :
    ∃ ks' gs', ScanInv t0 (done ++ [e]) ks' gs' st' ∧ e' = scanned t0 e := by
  obtain ⟨rel, r⟩ := e
  unfold scanOne at h
  simp only at h
  by_cases hg : UsesGot rel
  · rw [if_pos ((needsGot_iff rel).2 hg), bind_ok] at h
    obtain ⟨sym, hs, h⟩ := h
    rw [unwrap_ok] at hs
    obtain ⟨s0, hs0, hun⟩ := imported_view hI.tab hs
    have hsc : scanned t0 (rel, r) = (rel, r) := if_neg fun hh => not_got_plt hg hh.1
    rw [hsc]
    by_cases hin : sym.inGot.isNone = true
    · rw [if_pos hin] at h
      cases h
      have hnone : AMap.get? gs r = none := by
        have := hI.inGot r sym hs
        rw [Option.isNone_iff_eq_none.1 hin] at this
        cases hx : AMap.get? gs r with
        | none => rfl
        | some v => rw [hx] at this; cases this
      have hnm : r ∉ gs.map (·.1) := AMap.get?_eq_none.1 hnone
      have hnu := fun hh => hnm ((hI.users r).2 hh)
      have hty : sym.isTls = true ↔ ThreadLocal t0 r := by
        have hi : sym.sym.st_info = s0.sym.st_info := congrArg (fun s => s.sym.st_info) hun
        constructor
        · intro hh
          refine ⟨s0, hs0, ?_⟩
          simpa [Symbol.isTls, stType, STT_TLS, hi] using hh
        · rintro ⟨s1, h1, h2⟩
          rw [hs0] at h1; cases h1
          simpa [Symbol.isTls, stType, STT_TLS, hi] using h2
      have hcount : (if (sym.isTls && u32 rel.r_info == R_X86_64_TLSGD) = true then 2 else 1) = slotsFor t0 (done ++ [(rel, r)]) r := by
        unfold slotsFor
        rw [firstUse_snoc_self hnu hg]
        simp only [Option.map_some, Option.some.injEq]
        have e1 : (u32 rel.r_info == R_X86_64_TLSGD) = true ↔ relType rel = 19 := by
          rw [beq_iff_eq]; exact Iff.rfl
        by_cases h1 : sym.isTls = true <;> by_cases h2 : relType rel = 19
        · rw [if_pos (by rw [h1, e1.2 h2]; rfl), if_pos ⟨h2, hty.1 h1⟩]
        · rw [if_neg (by rw [h1]; simpa using fun hh => h2 (e1.1 (by simpa using hh))), if_neg (fun hh => h2 hh.1)]
        · rw [if_neg (by simp [h1]), if_neg (fun hh => h1 (hty.2 hh.2))]
        · rw [if_neg (by simp [h1]), if_neg (fun hh => h2 hh.1)]
      have hpos : 0 < slotsFor t0 (done ++ [(rel, r)]) r := by unfold slotsFor; split <;> omega
      rw [hcount]
      refine ⟨ks, gs ++ [(r, st.gotLen, slotsFor t0 (done ++ [(rel, r)]) r)], ?_, rfl⟩
      constructor
      · show SymbolTable.view unscan (SymbolTable.modify _ _ _) = _
        exact (SymbolTable.view_modify (F := unscan) (by intro s; rfl)).trans hI.tab
      · intro d hd hu
        rw [List.mem_append, List.mem_singleton] at hd
        rcases hd with hd | rfl
        · exact hI.has d hd hu
        · rw [hs0]; rfl
      · exact hI.nodup
      · exact hI.plt
      · exact hI.gotPlt
      · intro r'
        rw [hI.calls r']
        constructor
        · rintro ⟨rl, h1, h2⟩; exact ⟨rl, by simp [h1], h2⟩
        · rintro ⟨rl, h1, h2, h3⟩
          rw [List.mem_append, List.mem_singleton] at h1
          rcases h1 with h1 | h1
          · exact ⟨rl, h1, h2, h3⟩
          · cases h1; exact absurd h2 (not_got_plt hg)
      · intro r' s' hs'
        simp only [SymbolTable.get_modify] at hs'
        split at hs'
        · next e =>
          subst e
          rw [hs] at hs'
          simp only [Option.map_some, Option.some.injEq] at hs'
          subst hs'
          exact hI.inPlt r sym hs
        · exact hI.inPlt r' s' hs'
      · rw [List.map_append, List.nodup_append]
        refine ⟨hI.gotNodup, by simp, ?_⟩
        intro a ha b hb hab
        simp only [List.map_cons, List.map_nil, List.mem_singleton] at hb
        subst hb; subst hab
        exact hnm ha
      · exact Packed.snoc hI.packed hpos
      · intro r'
        rw [List.map_append, List.mem_append, hI.users r']
        simp only [List.map_cons, List.map_nil, List.mem_singleton]
        constructor
        · rintro (⟨rl, h1, h2⟩ | rfl)
          · exact ⟨rl, by simp [h1], h2⟩
          · exact ⟨rel, by simp, hg⟩
        · rintro ⟨rl, h1, h2⟩
          rw [List.mem_append, List.mem_singleton] at h1
          rcases h1 with h1 | h1
          · exact .inl ⟨rl, h1, h2⟩
          · cases h1; exact .inr rfl
      · intro r' s' hs'
        simp only [SymbolTable.get_modify] at hs'
        rw [AMap.get?_append]
        split at hs'
        · next e =>
          subst e
          rw [hs] at hs'
          simp only [Option.map_some, Option.some.injEq] at hs'
          subst hs'
          rw [hnone]
          simp [AMap.get?]
        · next e =>
          rw [hI.inGot r' s' hs']
          cases hx : AMap.get? gs r' with
          | none => simp [AMap.get?, e]
          | some v => rfl
      · intro x hx
        rw [List.mem_append, List.mem_singleton] at hx
        rcases hx with hx | rfl
        · rw [slotsFor_snoc ((hI.users x.1).1 (List.mem_map_of_mem hx))]
          exact hI.count x hx
        · rfl
    · rw [if_neg hin] at h
      cases h
      refine ⟨ks, gs, hI.skip (fun _ => by rw [hs0]; rfl) (fun _ => ?_) (fun hp => absurd hp (not_got_plt hg)), rfl⟩
      have := hI.inGot r sym hs
      rw [← AMap.keys, ← AMap.get?_isSome]
      cases hx : AMap.get? gs r with
      | none => rw [hx] at this; rw [this] at hin; simp at hin
      | some v => rfl
  · rw [if_neg (fun hh => hg ((needsGot_iff rel).1 hh))] at h
    by_cases hp : UsesPlt rel
    · rw [if_pos (show u32 rel.r_info = R_X86_64_PLT32 from hp), bind_ok] at h
      obtain ⟨sym, hs, h⟩ := h
      rw [unwrap_ok] at hs
      obtain ⟨s0, hs0, hun⟩ := imported_view hI.tab hs
      have hdy : sym.dynamic = s0.dynamic := congrArg (·.dynamic) hun
      by_cases hd : sym.dynamic.isSome = true
      · rw [if_pos hd] at h
        have himp : Imported t0 r := ⟨s0, hs0, hdy ▸ hd⟩
        have hsc : scanned t0 (rel, r) = (rel, r) := if_neg fun hh => hh.2 himp
        rw [hsc]
        have hgp : ∀ r', AMap.get? st.gotPlt r' = if r' ∈ ks then some ((ks.idxOf r' + 3) * 8) else none := by
          intro r'
          rw [hI.gotPlt, AMap.get?_map_value (f := fun i => (i + 3) * 8), get?_zipIdx]
          split <;> rfl
        have hpl : ∀ r', AMap.get? st.plt r' = if r' ∈ ks then some (ks.idxOf r') else none := by
          intro r'; rw [hI.plt, get?_zipIdx]; rfl
        by_cases hk : r ∈ ks
        · have e1 : AMap.get? st.gotPlt r = some ((ks.idxOf r + 3) * 8) := by rw [hgp, if_pos hk]
          have e2 : AMap.get? st.plt r = some (ks.idxOf r) := by rw [hpl, if_pos hk]
          simp only [e1, Plt.insert, e2] at h
          cases h
          have hid : ∀ r' s', (st.symtab.modify r fun s => { s with inGotPlt := some ((ks.idxOf r + 3) * 8), inPlt := some (ks.idxOf r) }).get r' = some s' →
              st.symtab.get r' = some s' := by
            intro r' s' hs'
            rw [SymbolTable.get_modify] at hs'
            split at hs'
            · next e =>
              subst e
              rw [hs] at hs' ⊢
              simp only [Option.map_some, Option.some.injEq] at hs'
              rw [← hs']
              obtain ⟨p1, p2⟩ := hI.inPlt r sym hs
              rw [e1] at p2; rw [e2] at p1
              cases sym
              simp only at p1 p2
              subst p1; subst p2; rfl
            · exact hs'
          refine ⟨ks, gs, ?_, rfl⟩
          have hb := hI.skip (e := (rel, r)) (fun _ => by rw [hs0]; rfl) (fun hh => absurd hh hg) (fun _ _ => hk)
          exact { hb with
            tab := by
              show SymbolTable.view unscan (SymbolTable.modify _ _ _) = _
              exact (SymbolTable.view_modify (F := unscan) (by intro s; rfl)).trans hI.tab
            inPlt := fun r' s' hs' => hI.inPlt r' s' (hid r' s' hs')
            inGot := fun r' s' hs' => hI.inGot r' s' (hid r' s' hs') }
        · have e1 : AMap.get? st.gotPlt r = none := by rw [hgp, if_neg hk]
          have e2 : AMap.get? st.plt r = none := by rw [hpl, if_neg hk]
          have l1 : st.gotPlt.length = ks.length := by rw [hI.gotPlt]; simp
          have l2 : st.plt.length = ks.length := by rw [hI.plt]; simp
          simp only [e1, Plt.insert, e2, l1, l2] at h
          cases h
          refine ⟨ks ++ [r], gs, ?_, rfl⟩
          constructor
          · show SymbolTable.view unscan (SymbolTable.modify _ _ _) = _
            exact (SymbolTable.view_modify (F := unscan) (by intro s; rfl)).trans hI.tab
          · intro d hd hu
            rw [List.mem_append, List.mem_singleton] at hd
            rcases hd with hd | rfl
            · exact hI.has d hd hu
            · rw [hs0]; rfl
          · rw [List.nodup_append]
            refine ⟨hI.nodup, by simp, ?_⟩
            intro a ha b hb hab
            simp only [List.mem_singleton] at hb
            subst hb; subst hab
            exact hk ha
          · show st.plt ++ _ = _
            rw [hI.plt]; simp [List.zipIdx_append]
          · show st.gotPlt ++ _ = _
            rw [hI.gotPlt]; simp [List.zipIdx_append]
          · intro r'
            rw [List.mem_append, List.mem_singleton, hI.calls r']
            constructor
            · rintro (⟨rl, h1, h2⟩ | rfl)
              · exact ⟨rl, by simp [h1], h2⟩
              · exact ⟨rel, by simp, hp, himp⟩
            · rintro ⟨rl, h1, h2, h3⟩
              rw [List.mem_append, List.mem_singleton] at h1
              rcases h1 with h1 | h1
              · exact .inl ⟨rl, h1, h2, h3⟩
              · cases h1; exact .inr rfl
          · intro r' s' hs'
            simp only [SymbolTable.get_modify] at hs'
            simp only [AMap.get?_append]
            split at hs'
            · next e =>
              subst e
              rw [hs] at hs'
              simp only [Option.map_some, Option.some.injEq] at hs'
              subst hs'
              rw [e1, e2]
              simp [AMap.get?]
            · next e =>
              obtain ⟨p1, p2⟩ := hI.inPlt r' s' hs'
              rw [p1, p2]
              constructor
              · cases AMap.get? st.plt r' <;> simp [AMap.get?, e]
              · cases AMap.get? st.gotPlt r' <;> simp [AMap.get?, e]
          · exact hI.gotNodup
          · exact hI.packed
          · intro r'
            rw [hI.users r']
            exact (users_snoc (P := UsesGot) (e := (rel, r)) hg r').symm
          · intro r' s' hs'
            simp only [SymbolTable.get_modify] at hs'
            split at hs'
            · next e =>
              subst e
              rw [hs] at hs'
              simp only [Option.map_some, Option.some.injEq] at hs'
              subst hs'
              exact hI.inGot r sym hs
            · exact hI.inGot r' s' hs'
          · intro x hx
            rw [slotsFor_snoc ((hI.users x.1).1 (List.mem_map_of_mem hx))]
            exact hI.count x hx
      · rw [if_neg hd] at h
        cases h
        have hni : ¬ Imported t0 r := by
          rintro ⟨s1, h1, h2⟩
          rw [hs0] at h1; cases h1
          exact hd (hdy ▸ h2)
        refine ⟨ks, gs, hI.skip (fun _ => by rw [hs0]; rfl) (fun hh => absurd hh hg) (fun _ hh => absurd hh hni), ?_⟩
        rw [scanned, if_pos ⟨hp, hni⟩]
        rw [show u32 rel.r_info = 4 from hp]
        rfl
    · rw [if_neg (show ¬ u32 rel.r_info = R_X86_64_PLT32 from hp)] at h
      cases h
      refine ⟨ks, gs, hI.skip (fun hh => ?_) (fun hh => absurd hh hg) (fun hh => absurd hh hp), ?_⟩
      · rcases hh with hh | hh
        · exact absurd hh hg
        · exact absurd hh hp
      · exact (if_neg fun hh => hp hh.1).symm

theorem ScanInv.all {l l' : List (Rela × SymbolRef)} (hI : ScanInv t0 done ks gs st) (h : mapAccumM scanOne st l = .ok (st', l')) :
    ∃ ks' gs', ScanInv t0 (done ++ l) ks' gs' st' ∧ l' = l.map (scanned t0) := by
  induction l generalizing done ks gs st l' with
  | nil => cases h; exact ⟨ks, gs, by simpa using hI, rfl⟩
  | cons e l ih =>
    rw [mapAccumM_cons] at h
    obtain ⟨t, b, t', bs1, e1, e2, e3⟩ := h
    cases e3
    obtain ⟨ks1, gs1, h1, rfl⟩ := hI.step e1
    obtain ⟨ks2, gs2, h2, rfl⟩ := ih h1 e2
    exact ⟨ks2, gs2, by simpa using h2, by simp⟩

theorem ScanInv.init {st : ScanState} (h1 : st.plt = []) (h2 : st.gotPlt = []) (h3 : st.gotLen = 1)
    (hb : ∀ r s, st.symtab.get r = some s → s.inGot = none ∧ s.inPlt = none ∧ s.inGotPlt = none) : ScanInv st.symtab [] [] [] st where
  tab := rfl
  has := by simp
  nodup := by simp
  plt := h1
  gotPlt := h2
  calls := by simp
  inPlt r s hs := by rw [h1, h2]; exact (hb r s hs).2
  gotNodup := by simp
  packed := h3.symm
  users := by simp
  inGot r s hs := (hb r s hs).1
  count := by simp

end Dld
