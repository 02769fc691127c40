import Verif.Model.SymbolTable
import Verif.Spec.Symbols
import Verif.Lemmas.AMap
/-! # Symbol resolution, one name at a time -/
namespace Dld
open Spec

namespace SymbolTable

/-- feed a sequence of symbols to the table -/
def addAll (t : SymbolTable) (l : List Add) : Except Path SymbolTable :=
  foldM' (fun t a => (t.addSymbol a.sym a.hash a.gnuHash a.ref).map (·.1)) t l

/-- the entry a first mention creates -/
def ofAdd (a : Add) : Symbol := { sym := a.sym, hash := a.hash, gnuHash := a.gnuHash, reference := a.ref }

/-- what a mention does to the entry of its name; `none` is the duplicate definition error -/
def mergeOne : Option Symbol → Add → Option (Option Symbol)
  | none, a => some (some (ofAdd a))
  | some old, a => (resolve old (ofAdd a)).map some

/-- what a sequence of mentions of one name does to its entry -/
def mergeAll : Option Symbol → List Add → Option (Option Symbol)
  | s, [] => some s
  | s, a :: l =>
    match mergeOne s a with
    | none => none
    | some s' => mergeAll s' l

theorem mergeAll_append (s : Option Symbol) (l l' : List Add) :
    mergeAll s (l ++ l') = (mergeAll s l).bind fun s' => mergeAll s' l' := by
  induction l generalizing s with
  | nil => rfl
  | cons a l ih =>
    simp only [List.cons_append, mergeAll]
    cases mergeOne s a with
    | none => rfl
    | some s' => exact ih s'

theorem addSymbol_section {t : SymbolTable} {a : Add} (h : a.isSection) :
    ∃ t' r, t.addSymbol a.sym a.hash a.gnuHash a.ref = .ok (t', r) ∧ t'.symbols = t.symbols ∧
      t'.numLocals = t.numLocals ∧ t'.isDynamic = t.isDynamic := by
  unfold addSymbol
  rw [if_pos (show stType a.sym.st_info = STT_SECTION from h)]
  exact ⟨_, _, rfl, rfl, rfl, rfl⟩

theorem addSymbol_named {t : SymbolTable} {a : Add} (h : ¬ a.isSection) :
    (mergeOne (AMap.get? t.symbols a.sym.st_name) a = none ∧
      ∃ old, AMap.get? t.symbols a.sym.st_name = some old ∧
        t.addSymbol a.sym a.hash a.gnuHash a.ref = .error old.reference) ∨
    ∃ s t', mergeOne (AMap.get? t.symbols a.sym.st_name) a = some (some s) ∧
      t.addSymbol a.sym a.hash a.gnuHash a.ref = .ok (t', .named a.sym.st_name) ∧
      t'.symbols = AMap.insert t.symbols a.sym.st_name s ∧
      t'.sectionSyms = t.sectionSyms ∧ t'.isDynamic = t.isDynamic ∧
      t'.numLocals = t.numLocals +
        (if AMap.get? t.symbols a.sym.st_name = none ∧ a.bind = 0 then 1 else 0) := by
  unfold addSymbol
  rw [if_neg (show ¬ stType a.sym.st_info = STT_SECTION from h)]
  cases hg : AMap.get? t.symbols a.sym.st_name with
  | none =>
    right
    refine ⟨ofAdd a, _, rfl, rfl, ?_, rfl, rfl, ?_⟩
    · simp [AMap.insert, hg, ofAdd]
    · simp only [Symbol.isLocal, stBind, STB_LOCAL, Add.bind, beq_iff_eq, true_and]
      split <;> simp
  | some old =>
    cases hr : resolve old (ofAdd a) with
    | none =>
      left
      refine ⟨by simp [mergeOne, hr], old, rfl, ?_⟩
      have hr' : resolve old { sym := a.sym, hash := a.hash, gnuHash := a.gnuHash, reference := a.ref } = none := hr
      simp [hr']
    | some s =>
      right
      have hr' : resolve old { sym := a.sym, hash := a.hash, gnuHash := a.gnuHash, reference := a.ref } = some s := hr
      refine ⟨s, { t with symbols := AMap.modify t.symbols a.sym.st_name fun _ => s },
        by simp [mergeOne, hr], by simp only [hr'], ?_, rfl, rfl, by simp⟩
      simp [AMap.insert, hg]

/-- the mentions of `n` in a sequence -/
def mentionsOf (n : Nat) (l : List Add) : List Add := l.filter fun a => decide (a.mentions n)

theorem addAll_cons (t : SymbolTable) (a : Add) (l : List Add) :
    addAll t (a :: l) =
      match t.addSymbol a.sym a.hash a.gnuHash a.ref with
      | .error e => .error e
      | .ok (t', _) => addAll t' l := by
  unfold addAll
  rw [foldM']
  cases t.addSymbol a.sym a.hash a.gnuHash a.ref with
  | error e => rfl
  | ok p => rfl

/-- Success of the table is success for every name, and the entries are the merged ones. -/
theorem addAll_ok {t t' : SymbolTable} {l : List Add} (h : addAll t l = .ok t') (n : Nat) :
    mergeAll (AMap.get? t.symbols n) (mentionsOf n l) = some (AMap.get? t'.symbols n) := by
  induction l generalizing t with
  | nil => cases h; rfl
  | cons a l ih =>
    rw [addAll_cons] at h
    by_cases hs : a.isSection
    · obtain ⟨t1, r, h1, h2, -⟩ := addSymbol_section (t := t) hs
      rw [h1] at h
      have := ih h
      rw [h2] at this
      simpa [mentionsOf, Add.mentions, hs] using this
    · rcases addSymbol_named (t := t) hs with ⟨-, old, -, h1⟩ | ⟨s, t1, h0, h1, h2, -⟩
      · rw [h1] at h; cases h
      · rw [h1] at h
        have := ih h
        rw [h2, AMap.get?_insert] at this
        by_cases hn : a.sym.st_name = n
        · subst hn
          simp only [if_true] at this
          have hm : mentionsOf a.sym.st_name (a :: l) = a :: mentionsOf a.sym.st_name l := by
            simp [mentionsOf, Add.mentions, hs]
          rw [hm, mergeAll, h0]
          exact this
        · simp only [hn, if_false] at this
          simpa [mentionsOf, Add.mentions, hs, hn] using this

/-- Failure of the table is failure at one name: the mentions before were merged, the next one
collides, and the path in the error is the one recorded in the entry. -/
theorem addAll_error {t : SymbolTable} {l : List Add} {e : Path} (h : addAll t l = .error e) :
    ∃ l1 a l2 old, l = l1 ++ a :: l2 ∧ ¬ a.isSection ∧
      mergeAll (AMap.get? t.symbols a.sym.st_name) (mentionsOf a.sym.st_name l1) = some (some old) ∧
      resolve old (ofAdd a) = none ∧ e = old.reference := by
  induction l generalizing t with
  | nil => cases h
  | cons a l ih =>
    rw [addAll_cons] at h
    by_cases hs : a.isSection
    · obtain ⟨t1, r, h1, h2, -⟩ := addSymbol_section (t := t) hs
      rw [h1] at h
      obtain ⟨l1, b, l2, old, hl, hb, hm, hr, he⟩ := ih h
      refine ⟨a :: l1, b, l2, old, by simp [hl], hb, ?_, hr, he⟩
      rw [h2] at hm
      simpa [mentionsOf, Add.mentions, hs] using hm
    · rcases addSymbol_named (t := t) hs with ⟨h0, old, hg, h1⟩ | ⟨s, t1, h0, h1, h2, -⟩
      · rw [h1] at h
        refine ⟨[], a, l, old, rfl, hs, by simpa [mentionsOf, mergeAll] using hg, ?_, by cases h; rfl⟩
        rw [hg] at h0
        simpa [mergeOne] using h0
      · rw [h1] at h
        obtain ⟨l1, b, l2, old, hl, hb, hm, hr, he⟩ := ih h
        refine ⟨a :: l1, b, l2, old, by simp [hl], hb, ?_, hr, he⟩
        rw [h2, AMap.get?_insert] at hm
        by_cases hn : a.sym.st_name = b.sym.st_name
        · simp only [hn, if_true] at hm
          have hmm : mentionsOf b.sym.st_name (a :: l1) = a :: mentionsOf b.sym.st_name l1 := by
            simp [mentionsOf, Add.mentions, hs, hn]
          rw [hmm, mergeAll, ← hn, h0, hn]
          exact hm
        · simp only [hn, if_false] at hm
          simpa [mentionsOf, Add.mentions, hs, hn] using hm

theorem addAll_append (t : SymbolTable) (l l' : List Add) :
    addAll t (l ++ l') =
      match addAll t l with
      | .error e => .error e
      | .ok t' => addAll t' l' := by
  induction l generalizing t with
  | nil => rfl
  | cons a l ih =>
    rw [List.cons_append, addAll_cons, addAll_cons]
    cases t.addSymbol a.sym a.hash a.gnuHash a.ref with
    | error e => rfl
    | ok p => exact ih p.1

/-- strength of the binding of an entry -/
def rankOf (s : Symbol) : Nat :=
  if s.sym.st_info / 16 = 1 then 2 else if s.sym.st_info / 16 = 2 then 1 else 0

/-- an entry with a standard binding -/
def std (s : Symbol) : Prop :=
  s.sym.st_info / 16 = 0 ∨ s.sym.st_info / 16 = 1 ∨ s.sym.st_info / 16 = 2

/-- The occupied branch in terms of strengths. -/
theorem resolve_eq {old : Symbol} {a : Add} (ho : std old) (ha : a.stdBind) :
    resolve old (ofAdd a) =
      if rankOf old = 2 ∧ a.rank = 2 ∧ old.sym.st_shndx ≠ 0 ∧ a.sym.st_shndx ≠ 0 then none
      else if rankOf old < a.rank then
        some { old with sym := { old.sym with
          st_info := a.sym.st_info, st_other := a.sym.st_other, st_shndx := a.sym.st_shndx,
          st_value := a.sym.st_value, st_size := a.sym.st_size } }
      else if old.sym.st_shndx = 0 then
        some { old with sym := { old.sym with st_shndx := a.sym.st_shndx } }
      else some old := by
  have hb : ∀ s : Symbol, std s → (s.isGlobal = true ↔ rankOf s = 2) := by
    intro s hs
    unfold Symbol.isGlobal rankOf stBind STB_GLOBAL
    rcases hs with h | h | h <;> simp [h]
  have ha' : std (ofAdd a) := ha
  have hrank : rankOf (ofAdd a) = a.rank := rfl
  have hh : ∀ s s' : Symbol, std s → std s' → (s.higherBindThan s' = true ↔ ¬ rankOf s < rankOf s') := by
    intro s s' hs hs'
    unfold Symbol.higherBindThan rankOf stBind STB_LOCAL STB_WEAK STB_GLOBAL
    rcases hs with h | h | h <;> rcases hs' with h' | h' | h' <;> simp [h, h']
  have hshndx : (ofAdd a).sym.st_shndx = a.sym.st_shndx := rfl
  unfold resolve
  simp only [SHN_UNDEF, Bool.and_eq_true, bne_iff_ne, beq_iff_eq, hb old ho, hb (ofAdd a) ha', hrank, hshndx,
    ne_eq, Bool.not_eq_true']
  have h1 : (old.higherBindThan (ofAdd a) = false) ↔ rankOf old < a.rank := by
    have := hh old (ofAdd a) ho ha'
    rw [hrank] at this
    rw [← Bool.not_eq_true, this]
    omega
  simp only [h1]
  congr 1
  simp [and_assoc]

/-- strength of the strongest of a list of mentions -/
def maxRank : List Add → Nat
  | [] => 0
  | a :: l => max a.rank (maxRank l)

theorem maxRank_append (l l' : List Add) : maxRank (l ++ l') = max (maxRank l) (maxRank l') := by
  induction l with
  | nil => simp [maxRank]
  | cons a l ih => simp [maxRank, ih]

theorem rank_le_maxRank {l : List Add} {a : Add} (h : a ∈ l) : a.rank ≤ maxRank l := by
  induction l with
  | nil => simp at h
  | cons b l ih =>
    rcases List.mem_cons.1 h with rfl | h
    · simp [maxRank]; omega
    · have := ih h; simp [maxRank]; omega

theorem exists_maxRank {l : List Add} (h : l ≠ []) : ∃ a ∈ l, a.rank = maxRank l := by
  induction l with
  | nil => exact absurd rfl h
  | cons b l ih =>
    by_cases hl : l = []
    · subst hl; exact ⟨b, by simp, by simp [maxRank]⟩
    · obtain ⟨a, ha, hr⟩ := ih hl
      by_cases hba : maxRank l ≤ b.rank
      · exact ⟨b, by simp, by simp [maxRank]; omega⟩
      · exact ⟨a, by simp [ha], by simp [maxRank]; omega⟩

theorem rank_le_two (a : Add) : a.rank ≤ 2 := by unfold Add.rank; split <;> (try split) <;> omega
theorem rankOf_le_two (s : Symbol) : rankOf s ≤ 2 := by unfold rankOf; split <;> (try split) <;> omega

/-- Everything known about an entry after the mentions `l`. -/
structure Merged (l : List Add) (s : Symbol) : Prop where
  std : std s
  rank : rankOf s = maxRank l
  /-- global and defined: a definition at or after a global mention -/
  gdef : (rankOf s = 2 ∧ s.sym.st_shndx ≠ 0) ↔
    ∃ l1 g l2, l = l1 ++ g :: l2 ∧ g.rank = 2 ∧ ∃ d ∈ g :: l2, d.defined
  reference : ∃ a l', l = a :: l' ∧ s.reference = a.ref ∧ s.hash = a.hash ∧ s.gnuHash = a.gnuHash ∧
    s.sym.st_name = a.sym.st_name
  shndx : ∃ a ∈ l, s.sym.st_shndx = a.sym.st_shndx
  fresh : s.inGot = none ∧ s.inPlt = none ∧ s.inGotPlt = none ∧ s.relocationOffset = none ∧
    s.dynamic = none

theorem rankOf_ofAdd (a : Add) : rankOf (ofAdd a) = a.rank := rfl

theorem merged_ofAdd {a : Add} (ha : a.stdBind) : Merged [a] (ofAdd a) where
  std := ha
  rank := by simp [rankOf_ofAdd, maxRank]
  gdef := by
    constructor
    · rintro ⟨h1, h2⟩
      exact ⟨[], a, [], rfl, h1, a, by simp, h2⟩
    · rintro ⟨l1, g, l2, hl, hg, d, hd, hd'⟩
      cases l1 with
      | cons x xs => simp at hl
      | nil =>
        simp at hl
        obtain ⟨rfl, rfl⟩ := hl
        simp at hd
        subst hd
        exact ⟨hg, hd'⟩
  reference := ⟨a, [], rfl, rfl, rfl, rfl, rfl⟩
  shndx := ⟨a, by simp, rfl⟩
  fresh := ⟨rfl, rfl, rfl, rfl, rfl⟩

theorem exists_global_split {l : List Add} :
    maxRank l = 2 ↔ ∃ l1 g l2, l = l1 ++ g :: l2 ∧ g.rank = 2 := by
  constructor
  · intro h
    have hne : l ≠ [] := by rintro rfl; simp [maxRank] at h
    obtain ⟨a, ha, hr⟩ := exists_maxRank hne
    obtain ⟨l1, l2, rfl⟩ := List.append_of_mem ha
    exact ⟨l1, a, l2, rfl, by omega⟩
  · rintro ⟨l1, g, l2, rfl, hg⟩
    have h1 := rank_le_maxRank (l := l1 ++ g :: l2) (a := g) (by simp)
    have hne : l1 ++ g :: l2 ≠ [] := by simp
    obtain ⟨a, ha, hr⟩ := exists_maxRank hne
    have := rank_le_two a
    omega

/-- definitions at or after a global mention, one mention later -/
theorem gdef_snoc {l : List Add} {a : Add} :
    (∃ l1 g l2, l ++ [a] = l1 ++ g :: l2 ∧ g.rank = 2 ∧ ∃ d ∈ g :: l2, d.defined) ↔
      (∃ l1 g l2, l = l1 ++ g :: l2 ∧ g.rank = 2 ∧ ∃ d ∈ g :: l2, d.defined) ∨
      ((maxRank l = 2 ∨ a.rank = 2) ∧ a.defined) := by
  constructor
  · rintro ⟨l1, g, l2, hl, hg, d, hd, hd'⟩
    rcases List.eq_nil_or_concat l2 with rfl | ⟨l3, b, rfl⟩
    · have := List.append_inj' hl rfl
      obtain ⟨rfl, h2⟩ := this
      simp at h2; subst h2
      simp at hd; subst hd
      exact .inr ⟨.inr hg, hd'⟩
    · have hl' : l ++ [a] = (l1 ++ g :: l3) ++ [b] := by simpa using hl
      have := List.append_inj' hl' rfl
      obtain ⟨rfl, h2⟩ := this
      simp at h2; subst h2
      have hd2 : d ∈ g :: l3 ∨ d = a := by
        simp at hd ⊢
        rcases hd with h | h | h
        · exact .inl (.inl h)
        · exact .inl (.inr h)
        · exact .inr h
      rcases hd2 with hd2 | rfl
      · exact .inl ⟨l1, g, l3, rfl, hg, d, hd2, hd'⟩
      · exact .inr ⟨.inl (exists_global_split.2 ⟨l1, g, l3, rfl, hg⟩), hd'⟩
  · rintro (⟨l1, g, l2, rfl, hg, d, hd, hd'⟩ | ⟨h, hd⟩)
    · exact ⟨l1, g, l2 ++ [a], by simp, hg, d, by simp at hd ⊢; rcases hd with h | h <;> simp [h], hd'⟩
    · rcases h with h | h
      · obtain ⟨l1, g, l2, rfl, hg⟩ := exists_global_split.1 h
        exact ⟨l1, g, l2 ++ [a], by simp, hg, a, by simp, hd⟩
      · exact ⟨l, a, [], rfl, h, a, by simp, hd⟩

theorem merged_snoc {l : List Add} {old s : Symbol} {a : Add} (h : Merged l old) (ha : a.stdBind)
    (hr : resolve old (ofAdd a) = some s) : Merged (l ++ [a]) s := by
  rw [resolve_eq h.std ha] at hr
  have hmax : maxRank (l ++ [a]) = max (maxRank l) a.rank := by rw [maxRank_append]; simp [maxRank]
  have hle := rank_le_two a
  have hle' := rankOf_le_two old
  have hrank := h.rank
  split at hr
  · cases hr
  · next hn =>
    have href : ∃ a' l', l ++ [a] = a' :: l' ∧ old.reference = a'.ref ∧ old.hash = a'.hash ∧
        old.gnuHash = a'.gnuHash ∧ old.sym.st_name = a'.sym.st_name := by
      obtain ⟨a', l', rfl, hx⟩ := h.reference
      exact ⟨a', l' ++ [a], by simp, hx⟩
    split at hr
    · next hlt =>
      cases hr
      have hr2 : rankOf (s := { old with sym := { old.sym with
          st_info := a.sym.st_info, st_other := a.sym.st_other, st_shndx := a.sym.st_shndx,
          st_value := a.sym.st_value, st_size := a.sym.st_size } }) = a.rank := rfl
      refine ⟨ha, by rw [hr2, hmax]; omega, ?_, href, ⟨a, by simp, rfl⟩, h.fresh⟩
      rw [gdef_snoc, ← h.gdef, hr2]
      constructor
      · rintro ⟨h1, h2⟩; exact .inr ⟨.inr h1, h2⟩
      · rintro (⟨h1, h2⟩ | ⟨h1, h2⟩)
        · omega
        · exact ⟨by omega, h2⟩
    · next hlt =>
      split at hr
      · next h0 =>
        cases hr
        have hr2 : rankOf (s := { old with sym := { old.sym with st_shndx := a.sym.st_shndx } })
          = rankOf old := rfl
        refine ⟨h.std, by rw [hr2, hmax]; omega, ?_, href, ⟨a, by simp, rfl⟩, h.fresh⟩
        rw [gdef_snoc, ← h.gdef, hr2]
        constructor
        · rintro ⟨h1, h2⟩; exact .inr ⟨.inl (by omega), h2⟩
        · rintro (⟨h1, h2⟩ | ⟨h1, h2⟩)
          · exact absurd h0 h2
          · exact ⟨by omega, h2⟩
      · next h0 =>
        cases hr
        refine ⟨h.std, by rw [hmax]; omega, ?_, href, ?_, h.fresh⟩
        · rw [gdef_snoc, ← h.gdef]
          constructor
          · exact .inl
          · rintro (h1 | ⟨h1, h2⟩)
            · exact h1
            · exact ⟨by omega, h0⟩
        · obtain ⟨b, hb, hb'⟩ := h.shndx
          exact ⟨b, by simp [hb], hb'⟩

theorem mergeAll_merged_from {l l0 : List Add} {s0 : Symbol} {s : Option Symbol} (h0 : Merged l0 s0)
    (hl : ∀ a ∈ l, a.stdBind) (h : mergeAll (some s0) l = some s) :
    ∃ x, s = some x ∧ Merged (l0 ++ l) x := by
  induction l generalizing l0 s0 with
  | nil => simp [mergeAll] at h; exact ⟨s0, h.symm, by simpa using h0⟩
  | cons a l ih =>
    simp only [mergeAll, mergeOne] at h
    cases hr : resolve s0 (ofAdd a) with
    | none => simp [hr] at h
    | some s1 =>
      simp only [hr, Option.map_some] at h
      obtain ⟨x, hx, hm⟩ := ih (merged_snoc h0 (hl a (by simp)) hr)
        (fun b hb => hl b (by simp [hb])) h
      exact ⟨x, hx, by simpa using hm⟩

theorem mergeAll_merged {l : List Add} {s : Option Symbol} (hne : l ≠ [])
    (hl : ∀ a ∈ l, a.stdBind) (h : mergeAll none l = some s) : ∃ x, s = some x ∧ Merged l x := by
  cases l with
  | nil => exact absurd rfl hne
  | cons a l =>
    simp only [mergeAll, mergeOne] at h
    exact mergeAll_merged_from (l0 := [a]) (merged_ofAdd (hl a (by simp)))
      (fun b hb => hl b (by simp [hb])) h

/-- the null symbol as an addition -/
def nullAdd : Add := { sym := {}, hash := 0, gnuHash := 0, ref := { full := [], file := none } }

/-- the mentions of `n` in a table's life, the null symbol included -/
def mentionsSinceNew (n : Nat) (l : List Add) : List Add :=
  (if n = 0 then [nullAdd] else []) ++ mentionsOf n l

theorem new_eq (d : Bool) :
    SymbolTable.new d = { symbols := [(0, nullSymbol)], sectionSyms := [], numLocals := 1, isDynamic := d } :=
  rfl

theorem mergeAll_new (d : Bool) (n : Nat) (l : List Add) :
    mergeAll (AMap.get? (SymbolTable.new d).symbols n) l =
      mergeAll none ((if n = 0 then [nullAdd] else []) ++ l) := by
  rw [new_eq]
  by_cases hn : n = 0
  · subst hn; rfl
  · have : ¬ (0 = n) := fun e => hn e.symm
    simp [AMap.get?, hn, this]

theorem mentionsSinceNew_eq (n : Nat) (l : List Add) :
    mentionsSinceNew n l = mentionsOf n (nullAdd :: l) := by
  unfold mentionsSinceNew mentionsOf
  by_cases hn : n = 0
  · subst hn; simp [Add.mentions, nullAdd, Add.isSection, Add.type]
  · have : ¬ (0 = n) := fun e => hn e.symm
    simp [Add.mentions, nullAdd, hn, this]

theorem nullAdd_std : nullAdd.stdBind := .inl rfl

end SymbolTable
end Dld
