import Verif.Lemmas.Symbols
import Verif.Lemmas.Sort
import Verif.Props.Serialize
/-! # Symbol resolution (C07-C15, C76) -/
namespace Dld
open Spec SymbolTable

namespace SymbolTable

/-- the table before the null symbol is added -/
def empty (d : Bool) : SymbolTable := { symbols := [], sectionSyms := [], numLocals := 0, isDynamic := d }

theorem addAll_new (d : Bool) (l : List Add) : addAll (.new d) l = addAll (empty d) (nullAdd :: l) := rfl

theorem mentionsOf_split {n : Nat} {l m1 m2 : List Add} {g : Add}
    (h : mentionsOf n l = m1 ++ g :: m2) :
    ∃ l1 l2, l = l1 ++ g :: l2 ∧ g.mentions n ∧ mentionsOf n l1 = m1 ∧ mentionsOf n l2 = m2 := by
  unfold mentionsOf at h
  rw [List.filter_eq_append_iff] at h
  obtain ⟨l1, l2, rfl, h1, h2⟩ := h
  rw [List.filter_eq_cons_iff] at h2
  obtain ⟨l3, l4, rfl, h3, h4, h5⟩ := h2
  refine ⟨l1 ++ l3, l4, by simp, by simpa using h4, ?_, h5⟩
  unfold mentionsOf
  rw [List.filter_append, h1]
  have : l3.filter (fun a => decide (a.mentions n)) = [] := by
    rw [List.filter_eq_nil_iff]; exact h3
  simp [this]

theorem mem_mentionsOf {n : Nat} {l : List Add} {a : Add} : a ∈ mentionsOf n l ↔ a ∈ l ∧ a.mentions n := by
  simp [mentionsOf]

theorem mentionsOf_append (n : Nat) (l l' : List Add) :
    mentionsOf n (l ++ l') = mentionsOf n l ++ mentionsOf n l' := by simp [mentionsOf]

theorem mentionsOf_cons (n : Nat) (a : Add) (l : List Add) (h : a.mentions n) :
    mentionsOf n (a :: l) = a :: mentionsOf n l := by simp [mentionsOf, h]

theorem rank_eq_two {a : Add} : a.rank = 2 ↔ a.bind = 1 := by
  unfold Add.rank; split
  · simp [*]
  · split <;> simp [*]

/-- A global mention of `n` and, at or after it, a definition of `n`. -/
def GlobalThenDefined (n : Nat) (l : List Add) : Prop :=
  ∃ l1 g l2, l = l1 ++ g :: l2 ∧ g.mentions n ∧ g.bind = 1 ∧ ∃ d ∈ g :: l2, d.mentions n ∧ d.defined

theorem globalThenDefined_iff {n : Nat} {l : List Add} :
    GlobalThenDefined n l ↔
      ∃ m1 g m2, mentionsOf n l = m1 ++ g :: m2 ∧ g.rank = 2 ∧ ∃ d ∈ g :: m2, d.defined := by
  constructor
  · rintro ⟨l1, g, l2, rfl, hg, hb, d, hd, hd1, hd2⟩
    refine ⟨mentionsOf n l1, g, mentionsOf n l2, ?_, rank_eq_two.2 hb, d, ?_, hd2⟩
    · rw [mentionsOf_append, mentionsOf_cons _ _ _ hg]
    · rw [← mentionsOf_cons _ _ _ hg]; exact mem_mentionsOf.2 ⟨hd, hd1⟩
  · rintro ⟨m1, g, m2, hm, hr, d, hd, hd'⟩
    obtain ⟨l1, l2, rfl, hg, -, h2⟩ := mentionsOf_split hm
    refine ⟨l1, g, l2, rfl, hg, rank_eq_two.1 hr, d, ?_, ?_, hd'⟩
    · rw [← h2, ← mentionsOf_cons _ _ _ hg] at hd; exact (mem_mentionsOf.1 hd).1
    · rw [← h2, ← mentionsOf_cons _ _ _ hg] at hd; exact (mem_mentionsOf.1 hd).2

theorem empty_get? (d : Bool) (n : Nat) : AMap.get? (empty d).symbols n = none := rfl

/-- the entry of a mentioned name after a successful history -/
theorem merged_of_ok {d : Bool} {L : List Add} {t : SymbolTable} {n : Nat}
    (h : addAll (empty d) L = .ok t) (hs : ∀ a ∈ L, a.mentions n → a.stdBind)
    (hm : ∃ a ∈ L, a.mentions n) :
    ∃ s, AMap.get? t.symbols n = some s ∧ Merged (mentionsOf n L) s := by
  have h1 := addAll_ok h n
  rw [empty_get?] at h1
  obtain ⟨a, ha, ha'⟩ := hm
  have hne : mentionsOf n L ≠ [] := by
    intro e
    have := mem_mentionsOf.2 ⟨ha, ha'⟩
    rw [e] at this; simp at this
  obtain ⟨x, hx, hx'⟩ := mergeAll_merged hne
    (fun b hb => hs b (mem_mentionsOf.1 hb).1 (mem_mentionsOf.1 hb).2) h1
  exact ⟨x, hx, hx'⟩

/-- A strong definition after a global mention and a definition fails, whatever follows it. -/
theorem addAll_strong_error {d : Bool} {n : Nat} {L1 L2 : List Add} {a : Add}
    (hs : ∀ c ∈ L1, c.mentions n → c.stdBind) (ha : a.strongDef n) (hg : GlobalThenDefined n L1) :
    ∃ e, addAll (empty d) (L1 ++ a :: L2) = .error e := by
  cases h : addAll (empty d) (L1 ++ a :: L2) with
  | error e => exact ⟨e, rfl⟩
  | ok t =>
    exfalso
    rw [addAll_append] at h
    cases h1 : addAll (empty d) L1 with
    | error e => simp [h1] at h
    | ok t1 =>
      simp only [h1] at h
      obtain ⟨s, hget, hM⟩ := merged_of_ok (n := n) h1 hs (by
          obtain ⟨l1, g, l2, rfl, hgm, -⟩ := hg
          exact ⟨g, by simp, hgm⟩)
      have hG := hM.gdef.2 (globalThenDefined_iff.1 hg)
      obtain ⟨ha1, ha2, ha3, ha4⟩ := ha
      have hres : resolve s (ofAdd a) = none := by
        rw [resolve_eq hM.std (.inr (.inl ha3)), if_pos]
        exact ⟨hG.1, rank_eq_two.2 ha3, hG.2, ha4⟩
      rw [addAll_cons] at h
      rcases addSymbol_named (t := t1) ha1 with ⟨-, old, -, h2⟩ | ⟨s', t', h0, -⟩
      · rw [h2] at h; cases h
      · rw [ha2, hget] at h0
        simp [mergeOne, hres] at h0

/-- Exact condition for an addition to fail. -/
theorem addAll_empty_error_iff {d : Bool} {L : List Add} (hs : ∀ a ∈ L, a.stdBind) :
    (∃ e, addAll (empty d) L = .error e) ↔
      ∃ n L1 a L2, L = L1 ++ a :: L2 ∧ a.strongDef n ∧ GlobalThenDefined n L1 := by
  constructor
  · rintro ⟨e, h⟩
    obtain ⟨L1, a, L2, old, rfl, ha, hm, hr, -⟩ := addAll_error h
    rw [empty_get?] at hm
    have hne : mentionsOf a.sym.st_name L1 ≠ [] := by
      intro e; rw [e] at hm; simp [mergeAll] at hm
    obtain ⟨x, hx, hx'⟩ := mergeAll_merged hne (fun b hb => hs b (by
      have := (mem_mentionsOf.1 hb).1
      simp [this])) hm
    cases hx
    have hast := hs a (by simp)
    rw [resolve_eq hx'.std hast] at hr
    split at hr
    · next h4 =>
      exact ⟨a.sym.st_name, L1, a, L2, rfl, ⟨ha, rfl, rank_eq_two.1 h4.2.1, h4.2.2.2⟩,
        globalThenDefined_iff.2 (hx'.gdef.1 ⟨h4.1, h4.2.2.1⟩)⟩
    · split at hr
      · cases hr
      · split at hr <;> cases hr
  · rintro ⟨n, L1, a, L2, rfl, ha, hg⟩
    exact addAll_strong_error (fun b hb _ => hs b (by simp [hb])) ha hg

theorem globalThenDefined_cons_null {n : Nat} {l : List Add} :
    GlobalThenDefined n (nullAdd :: l) ↔ GlobalThenDefined n l := by
  constructor
  · rintro ⟨l1, g, l2, hl, hg, hb, hd⟩
    cases l1 with
    | nil => simp at hl; obtain ⟨rfl, rfl⟩ := hl; exact absurd hb (by decide)
    | cons x l1 => simp at hl; exact ⟨l1, g, l2, hl.2, hg, hb, hd⟩
  · rintro ⟨l1, g, l2, rfl, hg, hb, hd⟩
    exact ⟨nullAdd :: l1, g, l2, rfl, hg, hb, hd⟩

theorem addAll_new_error_iff {d : Bool} {l : List Add} (hs : ∀ a ∈ l, a.stdBind) :
    (∃ e, addAll (.new d) l = .error e) ↔
      ∃ n l1 a l2, l = l1 ++ a :: l2 ∧ a.strongDef n ∧ GlobalThenDefined n l1 := by
  rw [addAll_new, addAll_empty_error_iff (by
    intro a ha
    rcases List.mem_cons.1 ha with rfl | ha
    · exact nullAdd_std
    · exact hs a ha)]
  constructor
  · rintro ⟨n, L1, a, L2, hl, ha, hg⟩
    cases L1 with
    | nil => simp at hl; obtain ⟨rfl, rfl⟩ := hl; exact absurd ha.2.2.1 (by decide)
    | cons x L1 =>
      simp at hl
      obtain ⟨rfl, rfl⟩ := hl
      exact ⟨n, L1, a, L2, rfl, ha, globalThenDefined_cons_null.1 hg⟩
  · rintro ⟨n, l1, a, l2, rfl, ha, hg⟩
    exact ⟨n, nullAdd :: l1, a, l2, rfl, ha, globalThenDefined_cons_null.2 hg⟩

end SymbolTable

/-! ## C07, C08: duplicate definitions -/

/-- **C07** Two strong definitions of one name are rejected whatever surrounds them. (Mentions of the
name with other bindings than local, global, weak are excluded: the resolution order is not defined
for them. Symbols of other names may have any binding.) -/
theorem C07_two_strong_definitions_rejected (d : Bool) (l1 l2 l3 : List Add) (a b : Add) (n : Nat)
    (ha : a.strongDef n) (hb : b.strongDef n)
    (hs : ∀ c ∈ l1 ++ a :: l2, c.mentions n → c.stdBind) :
    ∃ p, (SymbolTable.new d).addAll (l1 ++ a :: l2 ++ b :: l3) = .error p := by
  have hnull : ∀ c ∈ nullAdd :: (l1 ++ a :: l2), c.mentions n → c.stdBind := by
    intro c hc hm
    rcases List.mem_cons.1 hc with rfl | hc
    · exact nullAdd_std
    · exact hs c hc hm
  refine (addAll_strong_error (L1 := nullAdd :: (l1 ++ a :: l2)) (L2 := l3) hnull hb ?_ :
    ∃ p, addAll (empty d) _ = .error p)
  exact globalThenDefined_cons_null.2
    ⟨l1, a, l2, rfl, ⟨ha.1, ha.2.1⟩, ha.2.2.1, a, by simp, ⟨ha.1, ha.2.1⟩, ha.2.2.2⟩

/-- a global/weak/local symbol for the examples: binding, section index, value -/
def exAdd (bind shndx value : Nat) (name : Nat := 7) (ref : Path := ⟨b!"a.o", some b!"a.o"⟩) : Add :=
  { sym := { st_name := name, st_info := bind * 16 + 2, st_shndx := shndx, st_value := value },
    hash := 5, gnuHash := 6, ref := ref }

example : (exAdd 1 3 0x10).strongDef 7 ∧ (exAdd 1 4 0x20).strongDef 7 ∧
    ∀ c ∈ [exAdd 1 0 0, exAdd 10 1 0 9] ++ exAdd 1 3 0x10 :: [exAdd 2 5 0], c.mentions 7 → c.stdBind := by
  decide
example : (SymbolTable.new false).addAll
    ([exAdd 1 0 0, exAdd 10 1 0 9] ++ exAdd 1 3 0x10 :: [exAdd 2 5 0] ++ exAdd 1 4 0x20 :: [exAdd 0 1 0 9]) =
      .error ⟨b!"a.o", some b!"a.o"⟩ := rfl

/-- **C08** is violated: a global reference, a weak definition and one strong definition of a name
are reported as a duplicate definition although there is only one strong definition. -/
theorem C08_no_spurious_duplicates_violated :
    let l := [exAdd 1 0 0, exAdd 2 3 0x10, exAdd 1 4 0x20]
    (∃ p, (SymbolTable.new false).addAll l = .error p) ∧
      ∀ n, (l.filter fun a => decide (a.strongDef n)).length ≤ 1 := by
  refine ⟨⟨⟨b!"a.o", some b!"a.o"⟩, rfl⟩, ?_⟩
  intro n
  by_cases h : n = 7
  · subst h; decide
  · have h' : ¬ (7 = n) := fun e => h e.symm
    simp [Add.strongDef, exAdd, h']

/-- **C08, partial** The exact condition for the error: a strong definition arrives when the name
already has a global mention with a definition (of any binding) at or after it. Missing from the full
claim: that definition may be weak or local. In particular, when every definition of a named symbol
is strong the error appears exactly if there are two strong definitions of one name. -/
theorem C08_no_spurious_duplicates_partial (d : Bool) (l : List Add) (hs : ∀ c ∈ l, c.stdBind) :
    ((∃ p, (SymbolTable.new d).addAll l = .error p) ↔
      ∃ n l1 g l2 a l3, l = l1 ++ g :: l2 ++ a :: l3 ∧ a.strongDef n ∧ g.mentions n ∧ g.bind = 1 ∧
        ∃ x ∈ g :: l2, x.mentions n ∧ x.defined) ∧
    ((∀ x ∈ l, ¬ x.isSection → x.defined → x.bind = 1) →
      ((∃ p, (SymbolTable.new d).addAll l = .error p) ↔
        ∃ n l1 x l2 a l3, l = l1 ++ x :: l2 ++ a :: l3 ∧ x.strongDef n ∧ a.strongDef n)) := by
  have key : (∃ p, (SymbolTable.new d).addAll l = .error p) ↔
      ∃ n l1 g l2 a l3, l = l1 ++ g :: l2 ++ a :: l3 ∧ a.strongDef n ∧ g.mentions n ∧ g.bind = 1 ∧
        ∃ x ∈ g :: l2, x.mentions n ∧ x.defined := by
    rw [addAll_new_error_iff hs]
    constructor
    · rintro ⟨n, l0, a, l3, rfl, ha, l1, g, l2, rfl, hg, hb, hd⟩
      exact ⟨n, l1, g, l2, a, l3, rfl, ha, hg, hb, hd⟩
    · rintro ⟨n, l1, g, l2, a, l3, rfl, ha, hg, hb, hd⟩
      exact ⟨n, l1 ++ g :: l2, a, l3, rfl, ha, l1, g, l2, rfl, hg, hb, hd⟩
  refine ⟨key, fun hstrong => ?_⟩
  rw [key]
  constructor
  · rintro ⟨n, l1, g, l2, a, l3, rfl, ha, hg, hb, x, hx, hxm, hxd⟩
    obtain ⟨m1, m2, hm⟩ := List.append_of_mem hx
    refine ⟨n, l1 ++ m1, x, m2, a, l3, by rw [hm]; simp, ⟨hxm.1, hxm.2, ?_, hxd⟩, ha⟩
    exact hstrong x (by rw [hm]; simp) hxm.1 hxd
  · rintro ⟨n, l1, x, l2, a, l3, rfl, hx, ha⟩
    exact ⟨n, l1, x, l2, a, l3, rfl, ha, ⟨hx.1, hx.2.1⟩, hx.2.2.1, x, by simp, ⟨hx.1, hx.2.1⟩, hx.2.2.2⟩

example : ∃ t, (SymbolTable.new false).addAll
    [exAdd 1 0 0, exAdd 1 3 0x10, exAdd 1 0 0, exAdd 1 3 0x10 8] = .ok t := ⟨_, rfl⟩

/-- **C76** The duplicate definition error names the file of the *first mention* of the symbol, which
need not define it: here `a.o` only refers to the symbol, `b.o` and `c.o` define it. -/
theorem C76_duplicate_error_names_a_definition_violated :
    let a := exAdd 1 0 0 7 ⟨b!"a.o", none⟩
    let b := exAdd 1 3 0 7 ⟨b!"b.o", none⟩
    let c := exAdd 1 4 0 7 ⟨b!"c.o", none⟩
    (SymbolTable.new false).addAll [a, b, c] = .error ⟨b!"a.o", none⟩ ∧
      ∀ x ∈ [a, b, c], x.ref = ⟨b!"a.o", none⟩ → ¬ x.defined :=
  ⟨rfl, by decide⟩

/-- **C76, partial** The path in the error is the file of the first mention of a name that has two
colliding mentions. Missing: that this file defines the symbol. -/
theorem C76_duplicate_error_names_a_definition_partial (d : Bool) (l : List Add)
    (hs : ∀ c ∈ l, c.stdBind) (p : Path) (h : (SymbolTable.new d).addAll l = .error p) :
    ∃ n l1 a l2 f m, l = l1 ++ a :: l2 ∧ a.strongDef n ∧
      nullAdd :: l1 = f ++ m :: (nullAdd :: l1).drop (f.length + 1) ∧
      (∀ x ∈ f, ¬ x.mentions n) ∧ m.mentions n ∧ p = m.ref := by
  rw [addAll_new] at h
  obtain ⟨L1, a, L2, old, hl, ha, hm, hr, hp⟩ := addAll_error h
  rw [empty_get?] at hm
  have hne : mentionsOf a.sym.st_name L1 ≠ [] := by
    intro e; rw [e] at hm; simp [mergeAll] at hm
  have hall : ∀ x ∈ nullAdd :: l, x.stdBind := by
    intro a ha
    rcases List.mem_cons.1 ha with rfl | ha
    · exact nullAdd_std
    · exact hs a ha
  obtain ⟨x, hx, hM⟩ := mergeAll_merged hne (fun b hb => hall b (by
    have := (mem_mentionsOf.1 hb).1
    rw [hl]; simp [this])) hm
  cases hx
  obtain ⟨m, m', hmm, href, -⟩ := hM.reference
  obtain ⟨f, g, hf, hmn, hf0, -⟩ := mentionsOf_split (m1 := []) hmm
  cases L1 with
  | nil => simp [mentionsOf] at hne
  | cons y L1 =>
    simp at hl
    obtain ⟨rfl, rfl⟩ := hl
    refine ⟨a.sym.st_name, L1, a, L2, f, m, rfl, ?_, ?_, ?_, hmn, by rw [hp, href]⟩
    · rw [resolve_eq hM.std (hall a (by simp))] at hr
      split at hr
      · next h4 => exact ⟨ha, rfl, rank_eq_two.1 h4.2.1, h4.2.2.2⟩
      · split at hr
        · cases hr
        · split at hr <;> cases hr
    · rw [hf]; simp
    · intro x hx hxm
      have := mem_mentionsOf.2 ⟨hx, hxm⟩
      rw [hf0] at this; simp at this

/-! ## C09: binding -/

/-- **C09** The binding of every named entry is the strongest of all bindings the name was added
with: at least as strong as each of them and equal to one of them. The order of the additions does
not occur in the statement. (Name 0 belongs to the null symbol, itself a local mention.) -/
theorem C09_binding_is_strongest (d : Bool) (l : List Add) (t : SymbolTable) (n : Nat)
    (h : (SymbolTable.new d).addAll l = .ok t) (hn : n ≠ 0)
    (hs : ∀ a ∈ l, a.mentions n → a.stdBind) (hm : ∃ a ∈ l, a.mentions n) :
    ∃ s, t.get (.named n) = some s ∧
      (∃ a ∈ l, a.mentions n ∧ stBind s.sym.st_info = a.bind) ∧
      (∀ a ∈ l, a.mentions n → a.bind = 1 → stBind s.sym.st_info = 1) ∧
      (∀ a ∈ l, a.mentions n → a.bind = 2 → stBind s.sym.st_info = 1 ∨ stBind s.sym.st_info = 2) := by
  rw [addAll_new] at h
  have hnull : ¬ nullAdd.mentions n := by
    rintro ⟨-, h⟩; exact hn h.symm
  obtain ⟨s, hget, hM⟩ := merged_of_ok (n := n) h
    (by
      intro a ha ham
      rcases List.mem_cons.1 ha with rfl | ha
      · exact absurd ham hnull
      · exact hs a ha ham)
    (by obtain ⟨a, ha, ham⟩ := hm; exact ⟨a, by simp [ha], ham⟩)
  have hmem : ∀ a, a ∈ mentionsOf n (nullAdd :: l) ↔ a ∈ l ∧ a.mentions n := by
    intro a
    rw [mem_mentionsOf, List.mem_cons]
    constructor
    · rintro ⟨rfl | h, h'⟩
      · exact absurd h' hnull
      · exact ⟨h, h'⟩
    · rintro ⟨h, h'⟩; exact ⟨.inr h, h'⟩
  have hne : mentionsOf n (nullAdd :: l) ≠ [] := by
    obtain ⟨a, ha, ham⟩ := hm
    exact List.ne_nil_of_mem ((hmem a).2 ⟨ha, ham⟩)
  obtain ⟨b, hb, hbr⟩ := exists_maxRank hne
  have hr := hM.rank
  have hstd : std s := hM.std
  refine ⟨s, hget, ⟨b, ((hmem b).1 hb).1, ((hmem b).1 hb).2, ?_⟩, ?_, ?_⟩
  · have hbs := hs b ((hmem b).1 hb).1 ((hmem b).1 hb).2
    rw [← hbr] at hr
    unfold rankOf Add.rank at hr
    unfold std at hstd
    unfold Add.stdBind at hbs
    unfold stBind
    rcases hstd with h1 | h1 | h1 <;> rcases hbs with h2 | h2 | h2 <;> simp [h1, h2] at hr ⊢
  · intro a ha ham hab
    have h1 := rank_le_maxRank ((hmem a).2 ⟨ha, ham⟩)
    rw [rank_eq_two.2 hab, ← hr] at h1
    unfold rankOf at h1
    unfold stBind
    rcases hstd with h2 | h2 | h2 <;> simp [h2] at h1 ⊢
  · intro a ha ham hab
    have h1 := rank_le_maxRank ((hmem a).2 ⟨ha, ham⟩)
    rw [← hr] at h1
    unfold rankOf Add.rank at h1
    unfold stBind
    rcases hstd with h2 | h2 | h2 <;> simp [h2, hab] at h1 ⊢

example : (((SymbolTable.new false).addAll [exAdd 0 1 0, exAdd 2 0 0, exAdd 1 0 0, exAdd 2 5 0]).toOption.bind
    (·.get (.named 7))).map (stBind ·.sym.st_info) = some 1 := by decide

/-! ## C10, C11: the definition -/

namespace SymbolTable

/-- a defined entry of strength at least `k` survives mentions that are defined or not stronger -/
theorem mergeAll_stays_defined {l : List Add} {s : Symbol} {o : Option Symbol} {k : Nat}
    (hst : std s) (hd : s.sym.st_shndx ≠ 0) (hk : k ≤ rankOf s)
    (hl : ∀ a ∈ l, a.stdBind ∧ (a.defined ∨ a.rank ≤ k)) (h : mergeAll (some s) l = some o) :
    ∃ x, o = some x ∧ x.sym.st_shndx ≠ 0 := by
  induction l generalizing s with
  | nil => simp [mergeAll] at h; exact ⟨s, h.symm, hd⟩
  | cons a l ih =>
    obtain ⟨ha, had⟩ := hl a (by simp)
    simp only [mergeAll, mergeOne] at h
    cases hr : resolve s (ofAdd a) with
    | none => simp [hr] at h
    | some s1 =>
      simp only [hr, Option.map_some] at h
      rw [resolve_eq hst ha] at hr
      have hl' := fun b (hb : b ∈ l) => hl b (by simp [hb])
      split at hr
      · cases hr
      · split at hr
        · next hlt =>
          cases hr
          have hdef : a.defined := had.resolve_right (by omega)
          exact ih (s := { s with sym := { s.sym with
            st_info := a.sym.st_info, st_other := a.sym.st_other, st_shndx := a.sym.st_shndx,
            st_value := a.sym.st_value, st_size := a.sym.st_size } }) ha hdef
            (show k ≤ a.rank by omega) hl' h
        · cases hr
          exact ih hst hd hk hl' h

theorem mergeOne_defined {s : Option Symbol} {a : Add} {o : Option Symbol} (hst : ∀ x, s = some x → std x)
    (ha : a.stdBind) (hd : a.defined) (h : mergeOne s a = some o) :
    ∃ x, o = some x ∧ std x ∧ x.sym.st_shndx ≠ 0 ∧ a.rank ≤ rankOf x := by
  cases s with
  | none => simp [mergeOne] at h; exact ⟨ofAdd a, h.symm, ha, hd, by rw [rankOf_ofAdd]; omega⟩
  | some s =>
    have hs := hst s rfl
    simp only [mergeOne] at h
    cases hr : resolve s (ofAdd a) with
    | none => simp [hr] at h
    | some s1 =>
      simp [hr] at h
      refine ⟨s1, h.symm, ?_⟩
      rw [resolve_eq hs ha] at hr
      split at hr
      · cases hr
      · split at hr
        · cases hr; exact ⟨ha, hd, Nat.le_refl _⟩
        · split at hr
          · cases hr; exact ⟨hs, hd, show a.rank ≤ rankOf s by omega⟩
          · cases hr; exact ⟨hs, by assumption, by omega⟩

theorem mergeAll_std {l : List Add} {s o : Option Symbol} (hst : ∀ x, s = some x → std x)
    (hl : ∀ a ∈ l, a.stdBind) (h : mergeAll s l = some o) : ∀ x, o = some x → std x := by
  intro x hx
  cases s with
  | none =>
    cases l with
    | nil => simp [mergeAll] at h; rw [← h] at hx; cases hx
    | cons a l =>
      obtain ⟨y, hy, hM⟩ := mergeAll_merged (by simp) hl h
      rw [hy] at hx; cases hx; exact hM.std
  | some s =>
    induction l generalizing s with
    | nil => simp [mergeAll] at h; exact hst x (by rw [h, hx])
    | cons a l ih =>
      simp only [mergeAll, mergeOne] at h
      cases hr : resolve s (ofAdd a) with
      | none => simp [hr] at h
      | some s1 =>
        simp only [hr, Option.map_some] at h
        refine ih (fun b hb => hl b (by simp [hb])) s1 ?_ h
        intro y hy; cases hy
        rw [resolve_eq (hst s rfl) (hl a (by simp))] at hr
        split at hr
        · cases hr
        · split at hr
          · cases hr; exact hl a (by simp)
          · split at hr <;> cases hr <;> exact hst s rfl

theorem mergeAll_split {l1 l2 : List Add} {a : Add} {s o : Option Symbol}
    (h : mergeAll s (l1 ++ a :: l2) = some o) :
    ∃ s1 s2, mergeAll s l1 = some s1 ∧ mergeOne s1 a = some s2 ∧ mergeAll s2 l2 = some o := by
  rw [mergeAll_append] at h
  cases h1 : mergeAll s l1 with
  | none => simp [h1] at h
  | some s1 =>
    simp only [h1, Option.bind_some, mergeAll] at h
    cases h2 : mergeOne s1 a with
    | none => simp [h2] at h
    | some s2 => simp only [h2] at h; exact ⟨s1, s2, rfl, h2, h⟩

end SymbolTable

/-- **C10** is violated: a weak definition followed by a global undefined reference ends up
undefined. -/
theorem C10_defined_stays_defined_violated :
    ∃ t s, (SymbolTable.new false).addAll [exAdd 2 3 0x10, exAdd 1 0 0] = .ok t ∧
      t.get (.named 7) = some s ∧ (exAdd 2 3 0x10).defined ∧ s.isUndefined = true :=
  ⟨_, _, rfl, rfl, by decide, by decide⟩

/-- **C10, partial** A name is defined at the end if it has a definition such that every later
mention is itself a definition or has no stronger binding; in particular if it has a strong
definition. Conversely a name nothing defines stays undefined. Missing: a definition followed by a
stronger undefined reference. -/
theorem C10_defined_stays_defined_partial (d : Bool) (l : List Add) (t : SymbolTable) (n : Nat)
    (h : (SymbolTable.new d).addAll l = .ok t) (hs : ∀ a ∈ l, a.mentions n → a.stdBind) :
    (∀ l1 x l2, l = l1 ++ x :: l2 → x.mentions n → x.defined →
      (∀ a ∈ l2, a.mentions n → a.defined ∨ a.rank ≤ x.rank) →
      ∃ s, t.get (.named n) = some s ∧ s.isUndefined = false) ∧
    ((∃ x ∈ l, x.strongDef n) → ∃ s, t.get (.named n) = some s ∧ s.isUndefined = false) ∧
    ((∀ a ∈ l, a.mentions n → ¬ a.defined) → ∀ s, t.get (.named n) = some s → s.isUndefined = true) := by
  have hall : ∀ a ∈ nullAdd :: l, a.mentions n → a.stdBind := by
    intro a ha ham
    rcases List.mem_cons.1 ha with rfl | ha
    · exact nullAdd_std
    · exact hs a ha ham
  rw [addAll_new] at h
  have hok := addAll_ok h n
  rw [empty_get?] at hok
  have first : ∀ l1 x l2, l = l1 ++ x :: l2 → x.mentions n → x.defined →
      (∀ a ∈ l2, a.mentions n → a.defined ∨ a.rank ≤ x.rank) →
      ∃ s, t.get (.named n) = some s ∧ s.isUndefined = false := by
    rintro l1 x l2 rfl hx hd hl2
    have : mentionsOf n (nullAdd :: (l1 ++ x :: l2)) =
        mentionsOf n (nullAdd :: l1) ++ x :: mentionsOf n l2 := by
      rw [← List.cons_append, mentionsOf_append, mentionsOf_cons _ _ _ hx]
    rw [this] at hok
    obtain ⟨s1, s2, h1, h2, h3⟩ := mergeAll_split hok
    have hst := mergeAll_std (s := none) (by simp) (fun a ha => by
      have := mem_mentionsOf.1 ha
      exact hall a (by rcases List.mem_cons.1 this.1 with h | h <;> simp [h]) this.2) h1
    obtain ⟨y, rfl, hy1, hy2, hy3⟩ := mergeOne_defined hst (hs x (by simp) hx) hd h2
    obtain ⟨z, hz, hz'⟩ := mergeAll_stays_defined hy1 hy2 hy3 (fun a ha => by
      have := mem_mentionsOf.1 ha
      exact ⟨hs a (by simp [this.1]) this.2, hl2 a this.1 this.2⟩) h3
    exact ⟨z, hz, by simpa [Symbol.isUndefined, SHN_UNDEF] using hz'⟩
  refine ⟨first, ?_, ?_⟩
  · rintro ⟨x, hx, hx1, hx2, hx3, hx4⟩
    obtain ⟨l1, l2, rfl⟩ := List.append_of_mem hx
    refine first l1 x l2 rfl ⟨hx1, hx2⟩ hx4 (fun a _ _ => .inr ?_)
    rw [rank_eq_two.2 hx3]; exact rank_le_two a
  · intro hu s hget
    have hne : mentionsOf n (nullAdd :: l) ≠ [] := by
      intro e
      rw [e] at hok
      simp only [mergeAll, Option.some.injEq] at hok
      have hget' : AMap.get? t.symbols n = some s := hget
      rw [hget'] at hok; cases hok
    obtain ⟨x, hx, hM⟩ := mergeAll_merged hne (fun b hb => hall b (mem_mentionsOf.1 hb).1
      (mem_mentionsOf.1 hb).2) hok
    have hget' : AMap.get? t.symbols n = some s := hget
    rw [hget'] at hx; cases hx
    obtain ⟨a, ha, hsh⟩ := hM.shndx
    have ha' := mem_mentionsOf.1 ha
    have hund : a.sym.st_shndx = 0 := by
      rcases List.mem_cons.1 ha'.1 with rfl | hal
      · rfl
      · have := hu a hal ha'.2
        unfold Add.defined at this
        omega
    simp [Symbol.isUndefined, SHN_UNDEF, hsh, hund]

example : (((SymbolTable.new false).addAll [exAdd 2 0 0, exAdd 2 3 0x10, exAdd 2 0 0]).toOption.bind
    (·.get (.named 7))).map (·.sym.st_shndx) = some 3 := by decide

/-- **C11** is violated: a global undefined reference followed by the definition keeps the value,
size and type of the reference. -/
theorem C11_definition_data_violated :
    ∃ t s, (SymbolTable.new false).addAll [exAdd 1 0 0, exAdd 1 3 0x10] = .ok t ∧
      t.get (.named 7) = some s ∧ (exAdd 1 3 0x10).strongDef 7 ∧
      s.sym.st_value ≠ (exAdd 1 3 0x10).sym.st_value :=
  ⟨_, _, rfl, rfl, by decide, by decide⟩

namespace SymbolTable

theorem mergeAll_keeps_global {l : List Add} {s : Symbol} {o : Option Symbol}
    (hst : std s) (hd : s.sym.st_shndx ≠ 0) (hk : rankOf s = 2)
    (hl : ∀ a ∈ l, a.stdBind) (h : mergeAll (some s) l = some o) : o = some s := by
  induction l with
  | nil => simp [mergeAll] at h; exact h.symm
  | cons a l ih =>
    have ha := hl a (by simp)
    simp only [mergeAll, mergeOne] at h
    cases hr : resolve s (ofAdd a) with
    | none => simp [hr] at h
    | some s1 =>
      simp only [hr, Option.map_some] at h
      rw [resolve_eq hst ha] at hr
      split at hr
      · cases hr
      · rw [if_neg (c := rankOf s < a.rank) (by have := rank_le_two a; omega)] at hr
        cases hr
        exact ih (fun b hb => hl b (by simp [hb])) h

end SymbolTable

/-- **C11, partial** If every mention before the strong definition is local or weak, the resolved
entry carries binding and type, visibility, section, value and size of that definition (and its name).
Missing: a global undefined reference arriving before the definition. -/
theorem C11_definition_data_partial (d : Bool) (l1 l2 : List Add) (x : Add) (t : SymbolTable) (n : Nat)
    (h : (SymbolTable.new d).addAll (l1 ++ x :: l2) = .ok t)
    (hs : ∀ a ∈ l1 ++ x :: l2, a.mentions n → a.stdBind)
    (hx : x.strongDef n) (hl1 : ∀ a ∈ l1, a.mentions n → a.bind ≠ 1) :
    ∃ s, t.get (.named n) = some s ∧ s.sym = x.sym := by
  have hall : ∀ a ∈ nullAdd :: (l1 ++ x :: l2), a.mentions n → a.stdBind := by
    intro a ha ham
    rcases List.mem_cons.1 ha with rfl | ha
    · exact nullAdd_std
    · exact hs a ha ham
  rw [addAll_new] at h
  have hok := addAll_ok h n
  rw [empty_get?] at hok
  have hxm : x.mentions n := ⟨hx.1, hx.2.1⟩
  have hxs := hs x (by simp) hxm
  have hxr := rank_eq_two.2 hx.2.2.1
  have : mentionsOf n (nullAdd :: (l1 ++ x :: l2)) =
      mentionsOf n (nullAdd :: l1) ++ x :: mentionsOf n l2 := by
    rw [← List.cons_append, mentionsOf_append, mentionsOf_cons _ _ _ hxm]
  rw [this] at hok
  obtain ⟨s1, s2, h1, h2, h3⟩ := mergeAll_split hok
  have hs2 : ∃ y, s2 = some y ∧ y.sym = x.sym ∧ std y := by
    cases s1 with
    | none => simp [mergeOne] at h2; exact ⟨_, h2.symm, rfl, hxs⟩
    | some old =>
      have hne : mentionsOf n (nullAdd :: l1) ≠ [] := by
        intro e; rw [e] at h1; simp [mergeAll] at h1
      obtain ⟨y, hy, hM⟩ := mergeAll_merged hne (fun b hb => by
        have := mem_mentionsOf.1 hb
        exact hall b (by rcases List.mem_cons.1 this.1 with h | h <;> simp [h]) this.2) h1
      cases hy
      have hlt : rankOf old < 2 := by
        rw [hM.rank]
        obtain ⟨b, hb, hbr⟩ := exists_maxRank hne
        rw [← hbr]
        have hb' := mem_mentionsOf.1 hb
        have : b.rank ≠ 2 := by
          rw [Ne, rank_eq_two]
          rcases List.mem_cons.1 hb'.1 with rfl | hbl
          · decide
          · exact hl1 b hbl hb'.2
        have := rank_le_two b
        omega
      simp only [mergeOne] at h2
      rw [resolve_eq hM.std hxs, if_neg (by omega), if_pos (by omega)] at h2
      simp at h2
      refine ⟨_, h2.symm, ?_, hxs⟩
      obtain ⟨a, l', hal, -, -, -, hname⟩ := hM.reference
      have han : a.sym.st_name = n := by
        have : a ∈ mentionsOf n (nullAdd :: l1) := by rw [hal]; simp
        exact (mem_mentionsOf.1 this).2.2
      simp only [hname, han, ← hx.2.1]
  obtain ⟨y, rfl, hy, hyst⟩ := hs2
  have hyr : rankOf y = 2 := by rw [← hxr]; unfold rankOf Add.rank Add.bind; rw [hy]
  have := mergeAll_keeps_global hyst (by rw [hy]; exact hx.2.2.2) hyr (fun b hb => by
    have := mem_mentionsOf.1 hb
    exact hs b (by simp [this.1]) this.2) h3
  exact ⟨y, this, hy⟩

example : (((SymbolTable.new false).addAll [exAdd 2 5 0x99, exAdd 1 3 0x10, exAdd 1 0 0]).toOption.bind
    (·.get (.named 7))).map (·.sym.st_value) = some 0x10 := by decide

/-! ## C12: locals -/

/-- **C12** is violated: two local symbols of the same name from different files become one entry
with the value of the first. -/
theorem C12_locals_separate_violated :
    ∃ t r1 t1 r2 t2, t = SymbolTable.new false ∧
      t.addSymbol (exAdd 0 1 0x10).sym 5 6 ⟨b!"a.o", none⟩ = .ok (t1, r1) ∧
      t1.addSymbol (exAdd 0 1 0x20).sym 5 6 ⟨b!"b.o", none⟩ = .ok (t2, r2) ∧
      r1 = r2 ∧ (t2.get r2).map (·.sym.st_value) = some 0x10 :=
  ⟨_, _, _, _, _, rfl, rfl, rfl, rfl, by decide⟩

namespace SymbolTable

/-- section symbols already stored stay where they are -/
theorem addSymbol_get_section {t t' : SymbolTable} {a : Add} {r : SymbolRef}
    (h : t.addSymbol a.sym a.hash a.gnuHash a.ref = .ok (t', r)) {i j : Nat} {s : Symbol}
    (hg : t.get (.section i j) = some s) : t'.get (.section i j) = some s := by
  by_cases hs : a.isSection
  · unfold addSymbol at h
    rw [if_pos (show stType a.sym.st_info = STT_SECTION from hs)] at h
    simp only [Except.ok.injEq, Prod.mk.injEq] at h
    obtain ⟨rfl, rfl⟩ := h
    simp only [get] at hg ⊢
    rw [AMap.get?_insert]
    split
    · next e =>
      subst e
      cases hl : AMap.get? t.sectionSyms a.sym.st_shndx with
      | none => simp [hl] at hg
      | some l =>
        simp only [hl, Option.bind_some] at hg
        simp only [Option.getD_some, Option.bind_some]
        obtain ⟨hj, -⟩ := List.getElem?_eq_some_iff.1 hg
        rw [List.getElem?_append_left hj]; exact hg
    · exact hg
  · rcases addSymbol_named (t := t) hs with ⟨-, old, -, h1⟩ | ⟨s', t1, -, h1, -, h3, -⟩
    · rw [h1] at h; cases h
    · rw [h1] at h
      simp only [Except.ok.injEq, Prod.mk.injEq] at h
      obtain ⟨rfl, rfl⟩ := h
      simpa [get, h3] using hg

theorem addAll_get_section {l : List Add} {t t' : SymbolTable} (h : t.addAll l = .ok t') {i j : Nat}
    {s : Symbol} (hg : t.get (.section i j) = some s) : t'.get (.section i j) = some s := by
  induction l generalizing t with
  | nil => cases h; exact hg
  | cons a l ih =>
    rw [addAll_cons] at h
    cases ha : t.addSymbol a.sym a.hash a.gnuHash a.ref with
    | error e => simp [ha] at h
    | ok p => simp only [ha] at h; exact ih h (addSymbol_get_section (r := p.2) ha hg)

/-- the reference returned for a section symbol was free before and finds the symbol afterwards -/
theorem addSymbol_section_ref {t t' : SymbolTable} {a : Add} {r : SymbolRef} (ha : a.isSection)
    (h : t.addSymbol a.sym a.hash a.gnuHash a.ref = .ok (t', r)) :
    (∃ i j, r = .section i j) ∧ t.get r = none ∧ t'.get r = some (ofAdd a) := by
  unfold addSymbol at h
  rw [if_pos (show stType a.sym.st_info = STT_SECTION from ha)] at h
  simp only [Except.ok.injEq, Prod.mk.injEq] at h
  obtain ⟨rfl, rfl⟩ := h
  refine ⟨⟨_, _, rfl⟩, ?_, ?_⟩
  · simp only [get]
    cases hl : AMap.get? t.sectionSyms a.sym.st_shndx with
    | none => rfl
    | some l => simp
  · simp only [get, AMap.get?_insert, if_true, Option.bind_some]
    simp [ofAdd]

end SymbolTable

/-- **C12, partial** What does stay separate. (a) Every section symbol keeps its own entry: the
reference returned for it retrieves exactly it at the end of the history, and the references of two
section symbols differ. (b) A named entry depends only on the mentions of its own name: deleting
everything else from the history gives the same entry. Missing: local symbols of the same name. -/
theorem C12_locals_separate_partial (d : Bool) :
    (∀ (l1 l2 : List Add) (a : Add) (t1 t2 t3 : SymbolTable) (r : SymbolRef), a.isSection →
      (SymbolTable.new d).addAll l1 = .ok t1 →
      t1.addSymbol a.sym a.hash a.gnuHash a.ref = .ok (t2, r) → t2.addAll l2 = .ok t3 →
      t3.get r = some { sym := a.sym, hash := a.hash, gnuHash := a.gnuHash, reference := a.ref } ∧
      ∀ (b : Add) (t4 : SymbolTable) (r' : SymbolRef), b.isSection →
        t3.addSymbol b.sym b.hash b.gnuHash b.ref = .ok (t4, r') → r ≠ r') ∧
    (∀ (l : List Add) (t : SymbolTable) (n : Nat), (SymbolTable.new d).addAll l = .ok t →
      ∃ t', (SymbolTable.new d).addAll (l.filter fun a => decide (a.mentions n)) = .ok t' ∧
        t'.get (.named n) = t.get (.named n)) := by
  constructor
  · intro l1 l2 a t1 t2 t3 r ha _ h2 h3
    obtain ⟨⟨i, j, rfl⟩, -, hg⟩ := addSymbol_section_ref ha h2
    have hg3 := addAll_get_section h3 hg
    refine ⟨hg3, ?_⟩
    rintro b t4 r' hb h4 rfl
    obtain ⟨-, hn, -⟩ := addSymbol_section_ref hb h4
    rw [hg3] at hn; cases hn
  · intro l t n h
    have hok := addAll_ok h n
    cases h' : (SymbolTable.new d).addAll (mentionsOf n l) with
    | ok t' =>
      refine ⟨t', h', ?_⟩
      have hok' := addAll_ok h' n
      have : mentionsOf n (mentionsOf n l) = mentionsOf n l := by simp [mentionsOf]
      rw [this, hok] at hok'
      simpa [SymbolTable.get] using hok'.symm
    | error e =>
      exfalso
      obtain ⟨L1, a, L2, old, hl, ha, hm, hr, -⟩ := addAll_error h'
      have han : a.mentions n := by
        have : a ∈ mentionsOf n l := by rw [hl]; simp
        exact (mem_mentionsOf.1 this).2
      have hL1 : mentionsOf a.sym.st_name L1 = L1 := by
        unfold mentionsOf
        rw [List.filter_eq_self]
        intro b hb
        have : b ∈ mentionsOf n l := by rw [hl]; simp [hb]
        rw [han.2]; simpa using (mem_mentionsOf.1 this).2
      rw [hL1, han.2] at hm
      have hl' : mentionsOf n l = L1 ++ a :: L2 := hl
      rw [hl'] at hok
      obtain ⟨s1, s2, h1, h2, -⟩ := mergeAll_split hok
      rw [hm] at h1; cases h1
      simp [mergeOne, hr] at h2

example : (exAdd 0 4 0).isSection = false ∧
    ({ exAdd 0 4 0 with sym := { st_info := 3, st_shndx := 4 } } : Add).isSection := by decide

/-! ## C13, C14: locals and order -/

/-- **C13** is violated: a local symbol overridden by a global one of the same name is still
counted. -/
theorem C13_num_locals_violated :
    ∃ t, (SymbolTable.new false).addAll [exAdd 0 1 0, exAdd 1 2 0] = .ok t ∧
      t.numLocals = 2 ∧ (t.symbols.filter fun e => e.2.isLocal).length = 1 :=
  ⟨_, rfl, by decide, by decide⟩

namespace SymbolTable

theorem addSymbol_keys_nodup {t t' : SymbolTable} {a : Add} {r : SymbolRef}
    (hn : (AMap.keys t.symbols).Nodup) (h : t.addSymbol a.sym a.hash a.gnuHash a.ref = .ok (t', r)) :
    (AMap.keys t'.symbols).Nodup := by
  by_cases hs : a.isSection
  · obtain ⟨t1, r1, h1, h2, -⟩ := addSymbol_section (t := t) hs
    rw [h1] at h; cases h; rw [h2]; exact hn
  · rcases addSymbol_named (t := t) hs with ⟨-, old, -, h1⟩ | ⟨s', t1, -, h1, h2, -⟩
    · rw [h1] at h; cases h
    · rw [h1] at h; cases h; rw [h2]; exact AMap.nodup_keys_insert hn _ _

theorem addAll_keys_nodup {l : List Add} {t t' : SymbolTable} (hn : (AMap.keys t.symbols).Nodup)
    (h : t.addAll l = .ok t') : (AMap.keys t'.symbols).Nodup := by
  induction l generalizing t with
  | nil => cases h; exact hn
  | cons a l ih =>
    rw [addAll_cons] at h
    cases ha : t.addSymbol a.sym a.hash a.gnuHash a.ref with
    | error e => simp [ha] at h
    | ok p => simp only [ha] at h; exact ih (addSymbol_keys_nodup (r := p.2) hn ha) h

/-- number of local entries -/
def localCount (t : SymbolTable) : Nat := (t.symbols.filter fun e => e.2.isLocal).length

theorem filter_modify_length {m : List (Nat × Symbol)} {k : Nat} {s old : Symbol}
    (hg : AMap.get? m k = some old) (he : s.isLocal = old.isLocal) :
    ((AMap.modify m k fun _ => s).filter fun e => e.2.isLocal).length =
      (m.filter fun e => e.2.isLocal).length := by
  induction m with
  | nil => simp [AMap.get?] at hg
  | cons e m ih =>
    obtain ⟨a, b⟩ := e
    by_cases h : a = k
    · simp [AMap.get?, h] at hg
      subst hg
      simp only [AMap.modify, h, if_true, List.filter_cons, he]
      split <;> rfl
    · simp [AMap.get?, h] at hg
      simp only [AMap.modify, h, if_false, List.filter_cons]
      split
      · simp [ih hg]
      · exact ih hg

theorem isLocal_iff {s : Symbol} : s.isLocal = true ↔ s.sym.st_info / 16 = 0 := by
  simp [Symbol.isLocal, stBind, STB_LOCAL]

end SymbolTable

/-- **C13, partial** When no name is mentioned both with local and with non-local binding (name 0 is
the null symbol's and counts as local), the count written to `sh_info` is exactly the number of local
entries. Missing: names mentioned with both kinds of binding. -/
theorem C13_num_locals_partial (d : Bool) (l : List Add) (t : SymbolTable)
    (h : (SymbolTable.new d).addAll l = .ok t) (hs : ∀ a ∈ l, a.stdBind)
    (loc : Nat → Bool) (h0 : loc 0 = true)
    (hloc : ∀ a ∈ l, ¬ a.isSection → (a.bind = 0 ↔ loc a.sym.st_name = true)) :
    t.numLocals = (t.symbols.filter fun e => e.2.isLocal).length := by
  have gen : ∀ (l : List Add) (t0 : SymbolTable), (∀ a ∈ l, a.stdBind) →
      (∀ a ∈ l, ¬ a.isSection → (a.bind = 0 ↔ loc a.sym.st_name = true)) →
      (∀ n s, AMap.get? t0.symbols n = some s → std s ∧ (s.isLocal = true ↔ loc n = true)) →
      t0.numLocals = localCount t0 → t0.addAll l = .ok t → t.numLocals = localCount t := by
    intro l
    induction l with
    | nil => intro t0 _ _ _ hc h; cases h; exact hc
    | cons a l ih =>
      intro t0 hs hloc hinv hc h
      rw [addAll_cons] at h
      have hs' := fun b (hb : b ∈ l) => hs b (by simp [hb])
      have hloc' := fun b (hb : b ∈ l) => hloc b (by simp [hb])
      by_cases hsec : a.isSection
      · obtain ⟨t1, r, h1, h2, h3, -⟩ := addSymbol_section (t := t0) hsec
        rw [h1] at h
        exact ih t1 hs' hloc' (by rw [h2]; exact hinv) (by rw [h3, hc, localCount, localCount, h2]) h
      · have hal := hloc a (by simp) hsec
        have has := hs a (by simp)
        rcases addSymbol_named (t := t0) hsec with ⟨-, old, -, h1⟩ | ⟨s, t1, hm, h1, h2, -, -, h5⟩
        · rw [h1] at h; cases h
        · rw [h1] at h
          -- the merged entry has the right kind
          have hsk : std s ∧ (s.isLocal = true ↔ loc a.sym.st_name = true) := by
            cases hg : AMap.get? t0.symbols a.sym.st_name with
            | none =>
              rw [hg] at hm; simp [mergeOne] at hm
              subst hm
              exact ⟨has, by rw [isLocal_iff]; exact hal⟩
            | some old =>
              obtain ⟨hostd, hol⟩ := hinv _ _ hg
              rw [hg] at hm
              simp only [mergeOne, Option.map_eq_some_iff, Option.some.injEq, exists_eq_right] at hm
              rw [resolve_eq hostd has] at hm
              split at hm
              · cases hm
              · split at hm
                · cases hm; exact ⟨has, by rw [isLocal_iff]; exact hal⟩
                · split at hm
                  · cases hm; exact ⟨hostd, hol⟩
                  · cases hm; exact ⟨hostd, hol⟩
          refine ih t1 hs' hloc' ?_ ?_ h
          · intro n x hx
            rw [h2, AMap.get?_insert] at hx
            split at hx
            · next e => cases hx; rw [← e]; exact hsk
            · exact hinv n x hx
          · rw [h5, hc]
            unfold localCount
            rw [h2]
            cases hg : AMap.get? t0.symbols a.sym.st_name with
            | none =>
              rw [hg] at hm; simp [mergeOne] at hm
              subst hm
              have : AMap.insert t0.symbols a.sym.st_name (ofAdd a) =
                  t0.symbols ++ [(a.sym.st_name, ofAdd a)] := by simp [AMap.insert, hg]
              rw [this, List.filter_append, List.length_append]
              by_cases hb : a.bind = 0
              · have : (ofAdd a).isLocal = true := isLocal_iff.2 hb
                simp [hb, this]
              · have : ¬ (ofAdd a).isLocal = true := fun e => hb (isLocal_iff.1 e)
                simp [hb, this]
            | some old =>
              have : AMap.insert t0.symbols a.sym.st_name s =
                  AMap.modify t0.symbols a.sym.st_name (fun _ => s) := by simp [AMap.insert, hg]
              rw [this, filter_modify_length hg]
              · simp
              · rw [Bool.eq_iff_iff, hsk.2, (hinv _ _ hg).2]
  refine gen l (.new d) hs hloc ?_ rfl h
  intro n s hg
  rw [new_eq] at hg
  simp only [AMap.get?] at hg
  split at hg
  · next e =>
    cases hg
    subst e
    exact ⟨.inl rfl, by simp [h0]; decide⟩
  · cases hg

example : (((SymbolTable.new false).addAll [exAdd 0 1 0 9, exAdd 1 0 0 7, exAdd 1 2 0 7, exAdd 0 1 0 8]).toOption.map
    (·.numLocals)) = some 3 := by decide

namespace SymbolTable

theorem sortLe_total (a b : Symbol) : sortLe a b = true ∨ sortLe b a = true := by
  unfold sortLe
  cases a.isLocal <;> cases b.isLocal <;> simp <;> omega

theorem sortLe_trans (a b c : Symbol) (h1 : sortLe a b = true) (h2 : sortLe b c = true) :
    sortLe a c = true := by
  unfold sortLe at *
  cases ha : a.isLocal <;> cases hb : b.isLocal <;> cases hc : c.isLocal <;>
    simp [ha, hb, hc] at * <;> omega

theorem filterMap_perm {α β : Type} (f : α → Option β) {l l' : List α} (h : l.Perm l') :
    (l.filterMap f).Perm (l'.filterMap f) := h.filterMap f

theorem filterMap_keys {m : List (Nat × Symbol)} (hn : (AMap.keys m).Nodup) :
    (AMap.keys m).filterMap (AMap.get? m) = m.map (·.2) := by
  have gen : ∀ (l : List (Nat × Symbol)), (∀ e ∈ l, AMap.get? m e.1 = some e.2) →
      (AMap.keys l).filterMap (AMap.get? m) = l.map (·.2) := by
    intro l
    induction l with
    | nil => intro _; rfl
    | cons e l ih =>
      intro h
      have h1 := h e (by simp)
      simp only [AMap.keys, List.map_cons, List.filterMap_cons, h1]
      congr 1
      exact ih fun x hx => h x (by simp [hx])
  exact gen m fun e he => AMap.get?_of_mem hn he

/-- the emitted symbols are the entries -/
theorem sorted_perm {order : List Nat → List Nat} {t : SymbolTable}
    (hn : (AMap.keys t.symbols).Nodup) (ho : (order (AMap.keys t.symbols)).Perm (AMap.keys t.symbols)) :
    (t.sorted order).Perm (t.symbols.map (·.2)) := by
  unfold sorted
  refine (stableSort_perm _ _).trans ?_
  rw [← filterMap_keys hn]
  exact ho.filterMap _

theorem sorted_pairwise (order : List Nat → List Nat) (t : SymbolTable) :
    (t.sorted order).Pairwise fun a b => sortLe a b = true :=
  stableSort_pairwise sortLe_total sortLe_trans _

end SymbolTable

/-- In a list whose local symbols come first, the locals are exactly the first so many. -/
theorem isLocal_iff_lt_count {l : List Symbol} (h : l.Pairwise fun a b => sortLe a b = true) :
    ∀ (i : Nat) (x : Symbol), l[i]? = some x → (x.isLocal = true ↔ i < (l.filter (·.isLocal)).length) := by
  induction l with
  | nil => simp
  | cons a l ih =>
    rw [List.pairwise_cons] at h
    intro i x hx
    by_cases ha : a.isLocal = true
    · simp only [List.filter_cons, ha, if_true, List.length_cons]
      cases i with
      | zero => simp at hx; subst hx; simp [ha]
      | succ i =>
        simp at hx
        rw [ih h.2 i x hx]; omega
    · have hall : ∀ b ∈ l, ¬ b.isLocal = true := by
        intro b hb hbl
        have := h.1 b hb
        simp [sortLe, ha, hbl] at this
      have hf : (a :: l).filter (·.isLocal) = [] := by
        rw [List.filter_eq_nil_iff]
        intro b hb
        rcases List.mem_cons.1 hb with rfl | hb
        · exact ha
        · exact hall b hb
      rw [hf]
      have hxm : x ∈ a :: l := List.mem_of_getElem? hx
      have : ¬ x.isLocal = true := by
        rcases List.mem_cons.1 hxm with rfl | hb
        · exact ha
        · exact hall x hb
      simp [this]

/-- **C13, partial**, the form a reader of the file relies on: under the same condition the count is
the index of the first non-local symbol in the emitted order, for every iteration order. -/
theorem C13_first_nonlocal_partial (d : Bool) (l : List Add) (t : SymbolTable)
    (h : (SymbolTable.new d).addAll l = .ok t) (hs : ∀ a ∈ l, a.stdBind)
    (loc : Nat → Bool) (h0 : loc 0 = true)
    (hloc : ∀ a ∈ l, ¬ a.isSection → (a.bind = 0 ↔ loc a.sym.st_name = true))
    (order : List Nat → List Nat)
    (ho : (order (AMap.keys t.symbols)).Perm (AMap.keys t.symbols))
    (i : Nat) (x : Symbol) (hx : (t.sorted order)[i]? = some x) :
    x.isLocal = true ↔ i < t.numLocals := by
  rw [isLocal_iff_lt_count (sorted_pairwise order t) i x hx, C13_num_locals_partial d l t h hs loc h0 hloc]
  have hn := addAll_keys_nodup (t := .new d) (by rw [new_eq]; simp [AMap.keys]) h
  have := ((sorted_perm hn ho).filter (fun s => s.isLocal)).length_eq
  rw [this, List.filter_map, List.length_map]
  exact Iff.rfl

example : ∃ t, (SymbolTable.new false).addAll [exAdd 1 0 0 7, exAdd 0 1 0 8] = .ok t ∧ t.numLocals = 2 ∧
    (t.sorted List.reverse)[2]?.map (·.isLocal) = some false := ⟨_, rfl, by decide, by decide⟩

/-- **C14, main part** For every table reached by additions and every iteration order: the emitted
list is a permutation of the entries (each exactly once) and no non-local symbol precedes a local one.
The null symbol comes first unless another local symbol has GNU hash 0 (partial: that proviso is
missing from the full claim). -/
theorem C14_order_partial (d : Bool) (l : List Add) (t : SymbolTable)
    (h : (SymbolTable.new d).addAll l = .ok t) (order : List Nat → List Nat)
    (ho : (order (AMap.keys t.symbols)).Perm (AMap.keys t.symbols)) :
    (t.sorted order).Perm (t.symbols.map (·.2)) ∧
    (∀ (i j : Nat) (x y : Symbol), (t.sorted order)[i]? = some x → (t.sorted order)[j]? = some y →
      x.isLocal = false → y.isLocal = true → j < i) ∧
    (∀ z, t.get (.named 0) = some z → z.isLocal = true → z.gnuHash = 0 →
      (∀ n s, n ≠ 0 → t.get (.named n) = some s → s.isLocal = true → s.gnuHash ≠ 0) →
      (t.sorted order)[0]? = some z) := by
  have hn := addAll_keys_nodup (t := .new d) (by rw [new_eq]; simp [AMap.keys]) h
  have hp := sorted_perm hn ho
  have hpw := sorted_pairwise order t
  refine ⟨hp, ?_, ?_⟩
  · intro i j x y hx hy hxl hyl
    obtain ⟨hi, hxe⟩ := List.getElem?_eq_some_iff.1 hx
    obtain ⟨hj, hye⟩ := List.getElem?_eq_some_iff.1 hy
    rcases Nat.lt_trichotomy i j with hij | hij | hij
    · have := List.pairwise_iff_getElem.1 hpw i j hi hj hij
      rw [hxe, hye] at this
      simp [sortLe, hxl, hyl] at this
    · subst hij; rw [hx] at hy; cases hy; rw [hxl] at hyl; cases hyl
    · exact hij
  · intro z hz hzl hzh hother
    have hzmem : z ∈ t.sorted order :=
      hp.mem_iff.2 (List.mem_map.2 ⟨(0, z), AMap.mem_of_get? hz, rfl⟩)
    cases hs : t.sorted order with
    | nil => rw [hs] at hzmem; simp at hzmem
    | cons x xs =>
      rw [hs] at hzmem hpw
      rcases List.mem_cons.1 hzmem with rfl | hzx
      · rfl
      · have hle := (List.pairwise_cons.1 hpw).1 z hzx
        have hxm : x ∈ t.symbols.map (·.2) := hp.mem_iff.1 (by rw [hs]; simp)
        obtain ⟨⟨n, x'⟩, hx, hxx⟩ := List.mem_map.1 hxm
        have hxe : x' = x := hxx
        rw [hxe] at hx
        have hxg := AMap.get?_of_mem hn hx
        have hxl : x.isLocal = true ∧ x.gnuHash = 0 := by
          simp only [sortLe, hzl, if_true] at hle
          by_cases hb : x.isLocal = true
          · refine ⟨hb, ?_⟩
            simp [hb, hzh] at hle
            exact UInt32.toNat.inj hle
          · simp [hb] at hle
        by_cases h0 : n = 0
        · subst h0
          have hz' : AMap.get? t.symbols 0 = some z := hz
          rw [hz'] at hxg; cases hxg; rfl
        · exact absurd hxl.2 (hother n x h0 hxg hxl.1)

/-- Consequence for the table the loader reads: with no named local additions the null symbol is
first, whatever the hashes. -/
theorem C14_null_first_when_no_locals (d : Bool) (l : List Add) (t : SymbolTable)
    (h : (SymbolTable.new d).addAll l = .ok t) (order : List Nat → List Nat)
    (ho : (order (AMap.keys t.symbols)).Perm (AMap.keys t.symbols))
    (hs : ∀ a ∈ l, a.stdBind ∧ ¬ a.isSection ∧ a.bind ≠ 0 ∧ a.sym.st_name ≠ 0) :
    (t.sorted order)[0]? = some SymbolTable.nullSymbol := by
  have h0 : t.get (.named 0) = some SymbolTable.nullSymbol := by
    have := addAll_ok h 0
    have he : mentionsOf 0 l = [] := by
      unfold mentionsOf
      rw [List.filter_eq_nil_iff]
      intro a ha
      have := (hs a ha).2.2.2
      simp [Add.mentions, this]
    rw [he, new_eq] at this
    simpa [mergeAll, AMap.get?, SymbolTable.get] using this.symm
  refine (C14_order_partial d l t h order ho).2.2 _ h0 (by decide) rfl ?_
  intro n s hn hg hl
  exfalso
  have hok := addAll_ok h n
  rw [mergeAll_new] at hok
  simp only [hn, if_false, List.nil_append] at hok
  have hg' : AMap.get? t.symbols n = some s := hg
  have hne : mentionsOf n l ≠ [] := by
    intro e; rw [e, hg'] at hok; simp [mergeAll] at hok
  obtain ⟨x, hx, hM⟩ := mergeAll_merged hne
    (fun b hb => (hs b (mem_mentionsOf.1 hb).1).1) hok
  rw [hg'] at hx; cases hx
  obtain ⟨b, hb, hbr⟩ := exists_maxRank hne
  have hb' := hs b (mem_mentionsOf.1 hb).1
  have hr := hM.rank
  rw [← hbr] at hr
  have hl0 := isLocal_iff.1 hl
  have : rankOf s = 0 := by simp [rankOf, hl0]
  rw [this] at hr
  unfold Add.rank at hr
  rcases hb'.1 with h1 | h1 | h1
  · exact hb'.2.2.1 h1
  · simp [h1] at hr
  · simp [h1] at hr

example : ∃ t, (SymbolTable.new true).addAll [exAdd 1 0 0, exAdd 2 0 0 9] = .ok t ∧
    (t.sorted List.reverse)[0]? = some SymbolTable.nullSymbol := ⟨_, rfl, by decide⟩

/-- **C14** is violated in `.symtab`: the name `glidphc` has GNU hash 0, so a local symbol of that
name ties with the null symbol and comes first in some iteration orders. -/
theorem C14_order_violated :
    let a : Add := { sym := { st_name := 1, st_info := 2, st_shndx := 1 },
                     hash := elfHash b!"glidphc", gnuHash := elfGnuHash b!"glidphc",
                     ref := ⟨b!"a.o", none⟩ }
    ∃ t, (SymbolTable.new false).addAll [a] = .ok t ∧
      (t.sorted List.reverse)[0]? ≠ some SymbolTable.nullSymbol ∧
      (t.sorted id)[0]? = some SymbolTable.nullSymbol :=
  ⟨_, rfl, by decide, by decide⟩

/-! ## C15: the image -/

theorem serSym_length (s : Sym) : (serSym s).length = 24 := by
  simp [serSym, length_le]

theorem drop_flatMap_sym (l : List Symbol) (i : Nat) :
    (l.flatMap fun s => serSym s.sym).drop (24 * i) = (l.drop i).flatMap fun s => serSym s.sym := by
  induction l generalizing i with
  | nil => simp
  | cons a l ih =>
    cases i with
    | zero => simp
    | succ i =>
      rw [List.flatMap_cons, List.drop_append, serSym_length]
      have : 24 * (i + 1) - 24 = 24 * i := by omega
      rw [this, List.drop_eq_nil_of_le (by rw [serSym_length]; omega)]
      simpa using ih i

/-- **C15** Entry `i` of the emitted bytes, read by the ELF64 symbol layout, is symbol `i` of the
emitted order; the byte length is the recorded size, 24 bytes per entry. -/
theorem C15_image_decodes (t : SymbolTable) (order : List Nat → List Nat)
    (hn : (AMap.keys t.symbols).Nodup)
    (ho : (order (AMap.keys t.symbols)).Perm (AMap.keys t.symbols)) :
    (t.chunk order).length = t.totalLen ∧
    ∀ i s, (t.sorted order)[i]? = some s → s.sym.Fits →
      decodeSym (t.chunk order) (24 * i) = s.sym.toSpec := by
  constructor
  · have h1 : ∀ l : List Symbol, (l.flatMap fun s => serSym s.sym).length = l.length * 24 := by
      intro l
      induction l with
      | nil => rfl
      | cons a l ih => rw [List.flatMap_cons, List.length_append, ih, serSym_length, List.length_cons]; omega
    unfold chunk totalLen
    rw [h1, (sorted_perm hn ho).length_eq, List.length_map]
    rfl
  · intro i s hs hf
    obtain ⟨hi, he⟩ := List.getElem?_eq_some_iff.1 hs
    rw [decodeSym_drop, chunk, drop_flatMap_sym, List.drop_eq_getElem_cons hi, List.flatMap_cons, he]
    exact decodeSym_ser s.sym hf _

/-- The hypothesis on the keys holds for every table built by additions. -/
theorem C15_keys (d : Bool) (l : List Add) (t : SymbolTable) (h : (SymbolTable.new d).addAll l = .ok t) :
    (AMap.keys t.symbols).Nodup :=
  addAll_keys_nodup (t := .new d) (by rw [new_eq]; simp [AMap.keys]) h

example : ∃ t, (SymbolTable.new false).addAll [exAdd 1 3 0x10, exAdd 0 2 0x20 9] = .ok t ∧
    (AMap.keys t.symbols).Nodup ∧ t.totalLen = 72 ∧
    (decodeSym (t.chunk id) 24).value = 0x20 := ⟨_, rfl, by decide, by decide, by decide⟩

end Dld
