import Verif.Spec.Fixed
/-! # Checking for concrete files which symbol is the definition of a name -/
namespace Dld
open Spec

/-- the symbol has the name `n` and is not a section symbol -/
def isNamed (y : Loaded) (t : Sym) (n : Name) : Bool := y.elf.symName t.st_name == some n && t.st_info % 16 != 3

/-- symbol number `j` of `x` is the only definition of `n` and decides -/
def onlyDef (pre : List Loaded) (x : Loaded) (post : List Loaded) (j : Nat) (s : Sym) (n : Name) : Bool :=
  ((pre ++ post).all fun y => y.elf.syms.all fun t => !isNamed y t n || (t.st_shndx == 0 && decide (t.st_info / 16 ≤ 2) && decide (bindRank t ≤ bindRank s))) &&
  (pre.all fun y => y.elf.syms.all fun t => !isNamed y t n || decide (bindRank t < bindRank s)) &&
  x.elf.syms.zipIdx.all fun q => !isNamed x q.1 n || (decide (q.1.st_info / 16 ≤ 2) && decide (bindRank q.1 ≤ bindRank s) &&
    (q.2 == j || (q.1.st_shndx == 0 && (decide (j < q.2) || decide (bindRank q.1 < bindRank s)))))

variable {pre post : List Loaded} {x : Loaded} {j : Nat} {s : Sym} {n : Name}

theorem onlyDef.facts (h : onlyDef pre x post j s n = true) :
    (∀ y ∈ pre ++ x :: post, ∀ j' s', SymbolOf y j' s' n → s'.st_shndx ≠ 0 → y = x ∧ j' = j) ∧
    (∀ y ∈ pre ++ x :: post, ∀ j' s', SymbolOf y j' s' n → s'.st_info / 16 ≤ 2 ∧ bindRank s' ≤ bindRank s) ∧
    (∀ y ∈ pre, ∀ j' s', SymbolOf y j' s' n → bindRank s' < bindRank s) ∧ ∀ j' s', SymbolOf x j' s' n → j' < j → bindRank s' < bindRank s := by
  simp only [onlyDef, Bool.and_eq_true, List.all_eq_true, Bool.or_eq_true, Bool.not_eq_true', decide_eq_true_eq, beq_iff_eq] at h
  obtain ⟨⟨h1, h2⟩, h3⟩ := h
  have hn : ∀ {y j' s'}, SymbolOf y j' s' n → isNamed y s' n = true := by
    intro y j' s' h
    simp [isNamed, h.2.1, h.2.2]
  have hx : ∀ j' s', SymbolOf x j' s' n → (s'.st_info / 16 ≤ 2 ∧ bindRank s' ≤ bindRank s) ∧
      (j' = j ∨ (s'.st_shndx = 0 ∧ (j < j' ∨ bindRank s' < bindRank s))) := by
    intro j' s' h
    rcases h3 (s', j') (List.mem_zipIdx_iff_getElem?.2 h.1) with g | g
    · rw [hn h] at g; cases g
    · exact g
  have ho : ∀ y ∈ pre ++ post, ∀ j' s', SymbolOf y j' s' n → (s'.st_shndx = 0 ∧ s'.st_info / 16 ≤ 2) ∧ bindRank s' ≤ bindRank s := by
    intro y hy j' s' h
    rcases h1 y hy s' (List.mem_of_getElem? h.1) with g | g
    · rw [hn h] at g; cases g
    · exact g
  have hsplit : ∀ y ∈ pre ++ x :: post, y = x ∨ y ∈ pre ++ post := by
    intro y hy
    simp only [List.mem_append, List.mem_cons] at hy ⊢
    rcases hy with h | h | h
    · exact .inr (.inl h)
    · exact .inl h
    · exact .inr (.inr h)
  refine ⟨?_, ?_, ?_, ?_⟩
  · intro y hy j' s' h h0
    rcases hsplit y hy with rfl | hy
    · rcases (hx j' s' h).2 with g | g
      · exact ⟨rfl, g⟩
      · exact absurd g.1 h0
    · exact absurd (ho y hy j' s' h).1.1 h0
  · intro y hy j' s' h
    rcases hsplit y hy with rfl | hy
    · exact (hx j' s' h).1
    · exact ⟨(ho y hy j' s' h).1.2, (ho y hy j' s' h).2⟩
  · intro y hy j' s' h
    rcases h2 y hy s' (List.mem_of_getElem? h.1) with g | g
    · rw [hn h] at g; cases g
    · exact g
  · intro j' s' h hj
    rcases (hx j' s' h).2 with g | ⟨_, g | g⟩
    · omega
    · omega
    · exact g

theorem FixedDefinition.of_check (h : onlyDef pre x post j s n = true) (hn : n ≠ []) (ho : n ∉ linkerSymbols) (hs : SymbolOf x j s n)
    (h0 : s.st_shndx ≠ 0) (hf : s.st_shndx = 0xfff1 ∨ x.elf.sectionHeaders.length ≤ s.st_shndx) : FixedDefinition pre x post j s n :=
  ⟨hn, ho, hs, h0, hf, (onlyDef.facts h).1, (onlyDef.facts h).2.1, (onlyDef.facts h).2.2⟩

theorem Definition.of_check (h : onlyDef pre x post j s n = true) (hn : n ≠ []) (ho : n ∉ linkerSymbols) (hs : SymbolOf x j s n)
    (h0 : s.st_shndx ≠ 0) (ha : s.st_shndx ≠ 0xfff1) : Definition pre x post j s n :=
  ⟨hn, ho, hs, h0, ha, (onlyDef.facts h).1, .inr ⟨(onlyDef.facts h).2.1, (onlyDef.facts h).2.2⟩⟩

end Dld
