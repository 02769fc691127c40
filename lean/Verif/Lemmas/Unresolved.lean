import Verif.Lemmas.Link
/-! # Unresolved symbols -/
namespace Dld
open Writer Spec StringTable

namespace SymbolTable

/-- an invariant of merging -/
theorem mergeAll_forall {P : Symbol → Prop} {l : List Add} {o o' : Option Symbol} (ho : ∀ s, o = some s → P s)
    (h1 : ∀ a ∈ l, P (ofAdd a)) (h2 : ∀ a ∈ l, ∀ old s, P old → resolve old (ofAdd a) = some s → P s)
    (h : mergeAll o l = some o') : ∀ s, o' = some s → P s := by
  induction l generalizing o with
  | nil => simp [mergeAll] at h; subst h; exact ho
  | cons a l ih =>
    simp only [mergeAll] at h
    cases hr : mergeOne o a with
    | none => simp [hr] at h
    | some s1 =>
      simp only [hr] at h
      refine ih (o := s1) ?_ (fun b hb => h1 b (by simp [hb])) (fun b hb => h2 b (by simp [hb])) h
      intro s hs
      subst hs
      cases o with
      | none => simp [mergeOne] at hr; subst hr; exact h1 a (by simp)
      | some old =>
        simp only [mergeOne] at hr
        cases hm : resolve old (ofAdd a) with
        | none => simp [hm] at hr
        | some s' =>
          rw [hm] at hr
          cases hr
          exact h2 a (by simp) old _ (ho old rfl) hm

/-- the three outcomes of a merge -/
theorem resolve_cases {old new s : Symbol} (h : resolve old new = some s) :
    ((stBind old.sym.st_info = 0 ∧ (stBind new.sym.st_info = 1 ∨ stBind new.sym.st_info = 2) ∨
        stBind old.sym.st_info = 2 ∧ stBind new.sym.st_info = 1) ∧
      s.sym.st_info = new.sym.st_info ∧ s.sym.st_shndx = new.sym.st_shndx) ∨
    (¬ (stBind old.sym.st_info = 0 ∧ (stBind new.sym.st_info = 1 ∨ stBind new.sym.st_info = 2) ∨
        stBind old.sym.st_info = 2 ∧ stBind new.sym.st_info = 1) ∧
      s.sym.st_info = old.sym.st_info ∧
      s.sym.st_shndx = if old.sym.st_shndx = 0 then new.sym.st_shndx else old.sym.st_shndx) := by
  have hb : old.higherBindThan new = !decide (stBind old.sym.st_info = 0 ∧ (stBind new.sym.st_info = 1 ∨ stBind new.sym.st_info = 2) ∨
        stBind old.sym.st_info = 2 ∧ stBind new.sym.st_info = 1) := by
    have e0 : STB_LOCAL = 0 := rfl
    have e1 : STB_GLOBAL = 1 := rfl
    have e2 : STB_WEAK = 2 := rfl
    rw [Bool.eq_iff_iff]
    simp only [Symbol.higherBindThan, e0, e1, e2, Bool.not_eq_true', Bool.or_eq_false_iff, Bool.and_eq_false_iff, beq_eq_false_iff_ne, decide_eq_false_iff_not]
    omega
  unfold resolve at h
  split at h
  · cases h
  · rw [hb, Bool.not_not] at h
    split at h
    · next hc =>
      rw [decide_eq_true_iff] at hc
      cases h
      exact .inl ⟨hc, rfl, rfl⟩
    · next hc =>
      rw [decide_eq_true_iff] at hc
      split at h
      · next hu =>
        cases h
        have hu : old.sym.st_shndx = 0 := eq_of_beq hu
        exact .inr ⟨hc, rfl, by rw [if_pos hu]⟩
      · next hu =>
        cases h
        have hu : ¬ old.sym.st_shndx = 0 := fun e => hu (beq_iff_eq.2 e)
        exact .inr ⟨hc, rfl, by rw [if_neg hu]⟩

end SymbolTable
open SymbolTable

theorem mergeAll_of_new {d : Bool} {l : List Add} {t : SymbolTable} (h : (SymbolTable.new d).addAll l = .ok t) (n : Nat) :
    mergeAll none (mentionsOf n (nullAdd :: l)) = some (t.get (.named n)) := by
  rw [addAll_new] at h
  have hok := addAll_ok h n
  rw [empty_get?] at hok
  exact hok

/-- an undefined symbol that is not local was mentioned without a definition -/
theorem undefined_mentioned {d : Bool} {l : List Add} {t : SymbolTable} {n : Nat} (h : (SymbolTable.new d).addAll l = .ok t)
    {s : Symbol} (hs : t.get (.named n) = some s) (hb : stBind s.sym.st_info = 1 ∨ stBind s.sym.st_info = 2) (hd : s.sym.st_shndx = 0) :
    ∃ a ∈ l, a.mentions n ∧ a.sym.st_shndx = 0 ∧ (stBind a.sym.st_info = 1 ∨ stBind a.sym.st_info = 2) := by
  have hm := mergeAll_of_new h n
  have hP : ∀ a ∈ mentionsOf n (nullAdd :: l), a.sym.st_shndx = 0 → (stBind a.sym.st_info = 1 ∨ stBind a.sym.st_info = 2) →
      ∃ a ∈ l, a.mentions n ∧ a.sym.st_shndx = 0 ∧ (stBind a.sym.st_info = 1 ∨ stBind a.sym.st_info = 2) := by
    intro a ha h0 hor
    have := mem_mentionsOf.1 ha
    rcases List.mem_cons.1 this.1 with rfl | hm
    · rcases hor with h | h <;> exact absurd h (by decide)
    · exact ⟨a, hm, this.2, h0, hor⟩
  have := mergeAll_forall (P := fun s => ¬ (stBind s.sym.st_info = 1 ∨ stBind s.sym.st_info = 2) ∨ s.sym.st_shndx ≠ 0 ∨
    ∃ a ∈ l, a.mentions n ∧ a.sym.st_shndx = 0 ∧ (stBind a.sym.st_info = 1 ∨ stBind a.sym.st_info = 2))
    (o := none) (by simp) ?_ ?_ hm s hs
  · rcases this with h | h | h
    · exact absurd hb h
    · exact absurd hd h
    · exact h
  · intro a ha
    by_cases h0 : stBind a.sym.st_info = 1 ∨ stBind a.sym.st_info = 2
    · by_cases h1 : a.sym.st_shndx = 0
      · exact .inr (.inr (hP a ha h1 h0))
      · exact .inr (.inl h1)
    · exact .inl h0
  · intro a ha old s' hold hr
    rcases resolve_cases hr with ⟨hc, h1, h2⟩ | ⟨hc, h1, h2⟩
    · by_cases h0 : a.sym.st_shndx = 0
      · exact .inr (.inr (hP a ha h0 (by simp only [ofAdd] at hc; omega)))
      · exact .inr (.inl (by rw [h2]; exact h0))
    · rw [h1, h2]
      rcases hold with h | h | h
      · exact .inl h
      · exact .inr (.inl (by rw [if_neg h]; exact h))
      · exact .inr (.inr h)

/-- a symbol with a global definition is defined -/
theorem global_defined {d : Bool} {l : List Add} {t : SymbolTable} {n : Nat} (h : (SymbolTable.new d).addAll l = .ok t)
    {s : Symbol} (hs : t.get (.named n) = some s) {a : Add} (ha : a ∈ l) (hm : a.mentions n) (hb : stBind a.sym.st_info = 1)
    (hd : a.sym.st_shndx ≠ 0) : s.sym.st_shndx ≠ 0 := by
  have hok := mergeAll_of_new h n
  obtain ⟨l1, l2, e⟩ := List.append_of_mem (mem_mentionsOf.2 ⟨List.mem_cons_of_mem nullAdd ha, hm⟩)
  rw [e] at hok
  obtain ⟨s1, s2, h1, h2, h3⟩ := mergeAll_split hok
  have hQ : ∀ y, s2 = some y → y.sym.st_shndx ≠ 0 ∧ stBind y.sym.st_info ≠ 0 ∧ stBind y.sym.st_info ≠ 2 := by
    intro y hy
    subst hy
    cases s1 with
    | none => simp [mergeOne] at h2; subst h2; exact ⟨hd, by simp [ofAdd, hb], by simp [ofAdd, hb]⟩
    | some old =>
      simp only [mergeOne] at h2
      cases hr : resolve old (ofAdd a) with
      | none => simp [hr] at h2
      | some s' =>
        rw [hr] at h2
        cases h2
        rcases resolve_cases hr with ⟨hc, g1, g2⟩ | ⟨hc, g1, g2⟩
        · rw [g1, g2]; exact ⟨hd, by simp [ofAdd, hb], by simp [ofAdd, hb]⟩
        · have : stBind (ofAdd a).sym.st_info = 1 := hb
          refine ⟨?_, by rw [g1]; omega, by rw [g1]; omega⟩
          rw [g2]; split
          · exact hd
          · assumption
  have : ∀ (l : List Add) (o : Option Symbol), (∀ y, o = some y → y.sym.st_shndx ≠ 0 ∧ stBind y.sym.st_info ≠ 0 ∧ stBind y.sym.st_info ≠ 2) →
      o.isSome → mergeAll o l = some (t.get (.named n)) → s.sym.st_shndx ≠ 0 := by
    intro l
    induction l with
    | nil =>
      intro o ho _ hm
      simp only [mergeAll] at hm
      rw [hs] at hm
      exact (ho s (Option.some.inj hm)).1
    | cons b l ih =>
      intro o ho hsome hm
      obtain ⟨y, rfl⟩ := Option.isSome_iff_exists.1 hsome
      simp only [mergeAll, mergeOne] at hm
      cases hr : resolve y (ofAdd b) with
      | none => simp [hr] at hm
      | some s' =>
        simp only [hr, Option.map_some] at hm
        refine ih (some s') ?_ rfl hm
        intro z hz
        cases hz
        have hy := ho y rfl
        rcases resolve_cases hr with ⟨hc, g1, g2⟩ | ⟨hc, g1, g2⟩
        · omega
        · rw [g1, g2, if_neg hy.1]; exact hy
  refine this l2 s2 hQ ?_ h3
  cases s1 <;> simp only [mergeOne, Option.some.injEq] at h2
  · subst h2; rfl
  · rw [Option.map_eq_some_iff] at h2
    obtain ⟨_, _, rfl⟩ := h2; rfl

variable {opts : Options} {ops ops' : List Op} {w w' : Writer}

theorem mem_symAdds_of {ns : List Name} {s : Sym} {sec : Option SectionRef} {n : Name} {p : Path} {r : SymbolRef}
    (h : Op.sym s sec n p r ∈ ops) :
    { sym := { s with st_name := u32 (nameOff ns n) }, hash := elfHash n, gnuHash := elfGnuHash n, ref := p } ∈ symAdds ns ops := by
  induction ops with
  | nil => cases h
  | cons op ops ih =>
    rcases List.mem_cons.1 h with h1 | h1
    · subst h1; simp [symAdds]
    · cases op <;> simp [symAdds, ih h1]

/-- the table agrees with the history -/
theorem Hist.unresolved (h : Hist opts ops w) (hfit : w.symstr.totalLen < 2 ^ 32) {k : Nat} {n : Name} {s : Symbol}
    (hs : w.symtab.get (.named k) = some s) (hu : isUnresolved s = true) (hn : w.symstr.name k = some n) : Unresolved ops n := by
  obtain ⟨ns, nd, hT⟩ := h.tableFacts
  obtain ⟨hns, rfl⟩ := hT.symstr.name_some hn
  have hu32 := u32_nameOff hT.symstr hfit hns
  have hget : (w.symtab.mapSyms undyn).get (.named (nameOff ns n)) = some (undyn s) := by
    rw [get_mapSyms, hs]; rfl
  have hd : s.sym.st_shndx = 0 ∧ (stBind s.sym.st_info = 1 ∨ stBind s.sym.st_info = 2) ∧ s.dynamic = none := by
    have e0 : SHN_UNDEF = 0 := rfl
    have e1 : STB_GLOBAL = 1 := rfl
    have e2 : STB_WEAK = 2 := rfl
    simpa [isUnresolved, Symbol.isGlobal, Symbol.isWeak, e0, e1, e2, and_assoc] using hu
  refine ⟨?_, ?_, ?_⟩
  · obtain ⟨a, ha, hm, h0, hb⟩ := undefined_mentioned hT.inv.sym hget hd.2.1 hd.1
    obtain ⟨e, sec, n', path, r, hop, rfl⟩ := mem_symAdds ha
    have hn' : n' = n := by
      have hmem : n' ∈ ns := (hT.symNames n').2 (.inr (mem_symNames hop))
      exact u32_nameOff_inj hT.symstr hfit hmem hns (hm.2.trans hu32.symm)
    subst hn'
    exact ⟨e, sec, ⟨⟨path, r, hop⟩, hm.1⟩, h0, hb⟩
  · rintro e sec ⟨⟨path, r, hop⟩, ht⟩ hb
    by_cases h0 : e.st_shndx = 0
    · exact h0
    · exact absurd hd.1 (global_defined (s := undyn s) hT.inv.sym hget (mem_symAdds_of hop) ⟨ht, hu32⟩ hb h0)
  · intro hi
    obtain ⟨s', h1, h2⟩ := h.imported hT.pre hi
    rw [hu32, hs] at h1
    cases h1
    rw [hd.2.2] at h2
    cases h2

theorem Hist.totalLen_le (h : Hist opts ops w) (h' : Hist opts (ops ++ ops') w') : w.symstr.totalLen ≤ w'.symstr.totalLen := by
  obtain ⟨ns, ns', ⟨t, rfl⟩, h1, h2, _⟩ := h.symstr_grows h'
  rw [h1.total, h2.total, total_append]; omega

theorem FromArchive.mono {env : Env} {l : Linker} {N N' : List Call → Name → Prop} {log : List Call} {x : Loaded}
    (h : FromArchive env l N log x) (hN : ∀ q n, q <+: log → N q n → N' q n) : FromArchive env l N' log x := by
  cases h with
  | mk hp hd ha hn hm he ho hs hq hu hl =>
    exact .mk hp hd ha hn hm he ho hs hq (hN _ _ (hq.trans (List.take_prefix _ _)) hu) hl

theorem Calls.mono {env : Env} {l : Linker} {N N' : List Call → Name → Prop} {loaded : List Loaded} {log : List Call}
    (h : Calls env l N loaded log) (hN : ∀ q n, q <+: log → N q n → N' q n) : Calls env l N' loaded log := by
  refine ⟨?_, ?_, h.readable, h.sections, h.others, h.needed, h.once⟩
  · intro a c b e
    exact (h.just a c b e).mono (fun _ h => h) fun q n hq => hN q n (hq.trans ⟨c :: b, e.symm⟩)
  · obtain ⟨ms, e, hm⟩ := h.objects
    exact ⟨ms, e, fun x hx => (hm x hx).mono hN⟩

namespace Linker
variable {env : Env} {l : Linker} {log : List Call} {loaded : List Loaded}

theorem Unmet.spec {order : List Nat → List Nat} (ho : ∀ l, (order l).Perm l) {q : List Call} {n : Name} (h : Unmet env l order q n)
    (hq : q <+: log) (hH : Hist l.options (opsOf log) w) (hfit : w.symstr.totalLen < 2 ^ 32) : NeededIn env l q n := by
  obtain ⟨⟨wq, k, hHq, hm, hn⟩, hw⟩ := h
  obtain ⟨t, rfl⟩ := hq
  rw [opsOf_append] at hH
  obtain ⟨k', s, e, hs, hu⟩ := (mem_undefinedSymbols ho).1 hm
  cases e
  exact ⟨hHq.unresolved (Nat.lt_of_le_of_lt (hHq.totalLen_le hH) hfit) hs hu hn, hw⟩

theorem calls_spec {sched : LinkSched} (hv : sched.Valid) (hc : Calls env l (Unmet env l sched.symIter) loaded log)
    (hH : Hist l.options (opsOf log) w) (hfit : w.symstr.totalLen < 2 ^ 32) :
    Calls env l (NeededIn env l) loaded log :=
  hc.mono fun _ _ hq hu => hu.spec hv.toSched.symIter hq hH hfit

end Linker
end Dld
