import Verif.Lemmas.LinkCalls
import Verif.Lemmas.Blame
/-! # The symbols listed as unresolved -/
namespace Dld
open Writer Spec StringTable SymbolTable

/-- a fact that holds once `a` has been merged, and that further merging keeps -/
theorem merged_after {d : Bool} {l : List Add} {t : SymbolTable} {n : Nat} (h : (SymbolTable.new d).addAll l = .ok t)
    {s : Symbol} (hs : t.get (.named n) = some s) {a : Add} (ha : a ∈ l) (hm : a.mentions n) {P Q : Symbol → Prop}
    (hQ0 : n = 0 → Q (ofAdd nullAdd)) (hQ1 : ∀ b ∈ l, b.mentions n → Q (ofAdd b)) (hQ2 : ∀ b ∈ nullAdd :: l, b.mentions n → Q (ofAdd b) → ∀ old s, Q old → resolve old (ofAdd b) = some s → Q s)
    (h1 : P (ofAdd a)) (h2 : ∀ old s, Q old → resolve old (ofAdd a) = some s → P s)
    (h3 : ∀ b ∈ nullAdd :: l, b.mentions n → Q (ofAdd b) → ∀ old s, Q old → P old → resolve old (ofAdd b) = some s → P s) : P s ∧ Q s := by
  have hok := mergeAll_of_new h n
  have hmem : ∀ b ∈ mentionsOf n (nullAdd :: l), b ∈ nullAdd :: l ∧ b.mentions n ∧ Q (ofAdd b) := by
    intro b hb
    have := mem_mentionsOf.1 hb
    refine ⟨this.1, this.2, ?_⟩
    rcases List.mem_cons.1 this.1 with rfl | hb
    · exact hQ0 this.2.2.symm
    · exact hQ1 b hb this.2
  obtain ⟨l1, l2, e⟩ := List.append_of_mem (mem_mentionsOf.2 ⟨List.mem_cons_of_mem nullAdd ha, hm⟩)
  rw [e] at hok hmem
  obtain ⟨s1, s2, g1, g2, g3⟩ := mergeAll_split hok
  have q1 : ∀ y, s1 = some y → Q y := mergeAll_forall (o := none) (by simp) (fun b hb => (hmem b (by simp [hb])).2.2)
    (fun b hb => by obtain ⟨x1, x2, x3⟩ := hmem b (by simp [hb]); exact hQ2 b x1 x2 x3) g1
  obtain ⟨z1, z2, z3⟩ := hmem a (by simp)
  have q2 : ∃ y, s2 = some y ∧ P y ∧ Q y := by
    cases s1 with
    | none =>
      simp only [mergeOne, Option.some.injEq] at g2
      exact ⟨_, g2.symm, h1, z3⟩
    | some old =>
      simp only [mergeOne, Option.map_eq_some_iff] at g2
      obtain ⟨y, hr, rfl⟩ := g2
      exact ⟨y, rfl, h2 old y (q1 old rfl) hr, hQ2 a z1 z2 z3 old y (q1 old rfl) hr⟩
  obtain ⟨y, rfl, p1, p2⟩ := q2
  rw [hs] at g3
  refine mergeAll_forall' (P := fun s => P s ∧ Q s) l2 (fun b hb old s' ho hr => ?_) y ⟨p1, p2⟩ g3
  obtain ⟨x1, x2, x3⟩ := hmem b (by simp [hb])
  exact ⟨h3 b x1 x2 x3 old s' ho.2 ho.1 hr, hQ2 b x1 x2 x3 old s' ho.2 hr⟩
where
  mergeAll_forall' {P : Symbol → Prop} : ∀ (l : List Add), (∀ b ∈ l, ∀ old s, P old → resolve old (ofAdd b) = some s → P s) →
      ∀ {s : Symbol} (y : Symbol), P y → mergeAll (some y) l = some (some s) → P s
    | [], _, s, y, hy, h => by simp only [mergeAll, Option.some.injEq] at h; exact h ▸ hy
    | b :: l, hl, s, y, hy, h => by
      simp only [mergeAll, mergeOne] at h
      cases hr : resolve y (ofAdd b) with
      | none => simp [hr] at h
      | some s' =>
        simp only [hr, Option.map_some] at h
        exact mergeAll_forall' l (fun c hc => hl c (by simp [hc])) s' (hl b (by simp) y s' hy hr) h

variable {opts : Options} {ops : List Op} {sched : Sched} {w w' : Writer} {file : Bytes} {secs : List Section}

/-- the entry of a name that is only mentioned without a definition, at least once by a global or weak symbol -/
theorem Hist.wanted (h : Hist opts ops w) (hfit : w.symstr.totalLen < 2 ^ 32) {ns nd : List Name} (T : TableFacts ns nd ops w) {n : Name} {s : Sym} {sec : Option SectionRef}
    (hm : Mention ops s sec n) (hb : s.st_info / 16 = 1 ∨ s.st_info / 16 = 2) (h0 : ∀ s sec, Mention ops s sec n → s.st_shndx = 0)
    (hb2 : ∀ s sec, Mention ops s sec n → s.st_info / 16 ≤ 2) (hd : ∀ e path r, Op.dynsym e n path r ∉ ops) :
    n ∈ ns ∧ ∃ y, w.symtab.get (.named (u32 (nameOff ns n))) = some y ∧ isUnresolved y = true := by
  obtain ⟨⟨path, r, hop⟩, h3⟩ := hm
  have hns : n ∈ ns := (T.symNames n).2 (.inr (mem_symNames hop))
  obtain ⟨y, hy⟩ := Option.isSome_iff_exists.1 ((T.inv.sref _ _ _ _ _ hop).1)
  rw [(T.inv.sref _ _ _ _ _ hop).2 h3] at hy
  refine ⟨hns, y, hy, ?_⟩
  have hget : (w.symtab.mapSyms undyn).get (.named (u32 (nameOff ns n))) = some (undyn y) := by rw [get_mapSyms, hy]; rfl
  have hall : ∀ b ∈ symAdds ns ops, b.mentions (u32 (nameOff ns n)) → b.sym.st_shndx = 0 ∧ stBind b.sym.st_info ≤ 2 := by
    intro b hb hmn
    obtain ⟨s', sec', m, path', r', hop', rfl⟩ := mem_symAdds hb
    have : m = n := u32_nameOff_inj T.symstr hfit ((T.symNames m).2 (.inr (mem_symNames hop'))) hns hmn.2
    subst this
    exact ⟨h0 s' sec' ⟨⟨_, _, hop'⟩, hmn.1⟩, hb2 s' sec' ⟨⟨_, _, hop'⟩, hmn.1⟩⟩
  have hQ : ∀ b old s', (old : Symbol).sym.st_shndx = 0 ∧ stBind old.sym.st_info ≤ 2 → (ofAdd b).sym.st_shndx = 0 ∧ stBind (ofAdd b).sym.st_info ≤ 2 →
      resolve old (ofAdd b) = some s' → s'.sym.st_shndx = 0 ∧ stBind s'.sym.st_info ≤ 2 := by
    intro b old s' ho hb hr
    rcases resolve_cases hr with ⟨_, g1, g2⟩ | ⟨_, g1, g2⟩
    · rw [g1, g2]; exact hb
    · rw [g1, g2, if_pos ho.1]; exact ⟨hb.1, ho.2⟩
  have key := merged_after (s := undyn y) (P := fun s => stBind s.sym.st_info = 1 ∨ stBind s.sym.st_info = 2)
    (Q := fun s => s.sym.st_shndx = 0 ∧ stBind s.sym.st_info ≤ 2) T.inv.sym hget (mem_symAdds_of hop) ⟨h3, rfl⟩
    (fun _ => ⟨rfl, by decide⟩) hall (fun b _ _ hb old s' ho hr => hQ b old s' ho hb hr) hb
    (fun old s' ho hr => by
      have hb' : s.st_info / 16 = 1 ∨ s.st_info / 16 = 2 := hb
      rcases resolve_cases hr with ⟨_, g1, _⟩ | ⟨hc, g1, _⟩
      · rw [g1]; exact hb
      · have := ho.2
        simp only [ofAdd] at hc
        rw [show stBind s.st_info = s.st_info / 16 from rfl] at hc
        rw [g1]; omega)
    (fun b _ _ _ old s' _ hP hr => by
      rcases resolve_cases hr with ⟨hc, g1, _⟩ | ⟨_, g1, _⟩
      · rw [g1]; omega
      · rw [g1]; exact hP)
  have hdyn : y.dynamic = none := by
    cases hy' : y.dynamic with
    | none => rfl
    | some d =>
      obtain ⟨m, hor, e1, e, path', hop'⟩ := T.inv.link _ _ _ hy hy'
      have hm : m ∈ ns := by
        rcases hor with rfl | ⟨_, _, _, _, _, rfl, s', sec', p', r', ho⟩
        · exact (T.symNames []).2 (.inl rfl)
        · exact (T.symNames m).2 (.inr (mem_symNames (List.mem_append_left _ ho)))
      have : n = m := u32_nameOff_inj T.symstr hfit hns hm (SymbolRef.named.inj e1)
      subst this
      exact absurd hop' (hd _ _ _)
  have e0 : SHN_UNDEF = 0 := rfl
  have e1 : STB_GLOBAL = 1 := rfl
  have e2 : STB_WEAK = 2 := rfl
  have k1 : stBind y.sym.st_info = 1 ∨ stBind y.sym.st_info = 2 := key.1
  have k2 : y.sym.st_shndx = 0 := key.2.1
  simp only [isUnresolved, Symbol.isGlobal, Symbol.isWeak, e0, e1, e2, hdyn, k2]
  rcases k1 with h | h <;> simp [h]

/-- a symbol that is not attached to a section and not one of the linker's own stays undefined -/
theorem Writer.Stages.keeps_undefined (st : Stages sched w) (hv : sched.Valid) (hh : Hist opts ops w) (hg : GoodInputs ops) (hn : NamesFit w)
    {r : SymbolRef} (ho : Ordinary w.symstr r) (hnone : ∀ sr, r ∈ notesAt sr ops → sr.ptr < P.first) {s : Symbol} (hs : w.symtab.get r = some s)
    (hu : isUnresolved s = true) : ∃ s', st.final.symtab.get r = some s' ∧ isUnresolved s' = true := by
  have hsym : st.patched.symstr = w.symstr := st.patched_symstr
  have h1 := hh.unplaced_symbol hv hg hn st rfl ho.toUnbound hnone
  rw [special_other (by rw [hsym]; exact ho) st.hspecial] at h1
  have h2 : (st.patched.symtab.get r).map (·.sym) = (w.symtab.get r).map (·.sym) := by
    exact SymbolTable.view_get st.patched_sym r
  rw [h2, hs] at h1
  obtain ⟨s', hs', e⟩ := Option.map_eq_some_iff.1 h1
  refine ⟨s', hs', ?_⟩
  obtain ⟨s1, _, hs1, _, _, _, _, _, _, _, _, hd, _, hi⟩ := st.final_slots hv hh hs'
  have hw : s1.dynamic = s.dynamic := by
    obtain ⟨s0, h1, h2⟩ := SymbolTable.view_get_some (scan_view (F := fun s : Symbol => s.dynamic) (fun _ _ _ _ => ⟨rfl, rfl⟩) st.hscan) hs1
    rw [hs] at h1; cases h1
    exact h2
  unfold isUnresolved Symbol.isGlobal Symbol.isWeak at hu ⊢
  rw [hd, hw, e]
  exact hu

namespace Linker
variable {env : Env} {l : Linker}

theorem undefinedNames_mem {w : Writer} {n : Name} : ∀ {rs : List SymbolRef} {names : List Name}, undefinedNames w rs = .ok names →
    (n ∈ names ↔ ∃ r ∈ rs, w.symbolName r = .ok (some n))
  | [], names, h => by cases h; simp
  | r :: rs, names, h => by
    simp only [undefinedNames, bind_ok] at h
    obtain ⟨o, ho, ns, hns, h⟩ := h
    cases h
    rw [List.mem_append, undefinedNames_mem hns]
    constructor
    · rintro (h | ⟨r', h1, h2⟩)
      · exact ⟨r, by simp, by rw [ho]; cases o <;> simp_all⟩
      · exact ⟨r', by simp [h1], h2⟩
    · rintro ⟨r', h1, h2⟩
      rcases List.mem_cons.1 h1 with rfl | h1
      · rw [ho] at h2; cases h2; simp
      · exact .inr ⟨r', h1, h2⟩

end Linker
end Dld
