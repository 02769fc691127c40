import Verif.Spec.Visibility
import Verif.Lemmas.Fixed
import Verif.Props.Values
/-! # The first of the strongest mentions of a name gives the symbol its binding, type, size and visibility -/
namespace Dld
open Writer Spec

/-- what a symbol table entry says besides name, value and section -/
def Sym.manner (s : Sym) : Nat × Nat × Nat := (s.st_info, s.st_other, s.st_size)

namespace SymbolTable

theorem mergeAll_manner {l : List Add} {s : Symbol} {o : Option Symbol} (hst : std s)
    (hl : ∀ a ∈ l, a.stdBind ∧ a.rank ≤ rankOf s) (h : mergeAll (some s) l = some o) : ∃ y, o = some y ∧ y.sym.manner = s.sym.manner := by
  induction l generalizing s with
  | nil => simp [mergeAll] at h; exact ⟨s, h.symm, rfl⟩
  | cons a l ih =>
    have ha := hl a (by simp)
    simp only [mergeAll, mergeOne] at h
    cases hr : resolve s (ofAdd a) with
    | none => simp [hr] at h
    | some s1 =>
      simp only [hr, Option.map_some] at h
      rw [resolve_eq hst ha.1] at hr
      split at hr
      · cases hr
      · rw [if_neg (c := rankOf s < a.rank) (by omega)] at hr
        split at hr
        · cases hr
          exact ih (s := { s with sym := { s.sym with st_shndx := a.sym.st_shndx } }) hst (fun b hb => hl b (by simp [hb])) h
        · cases hr
          exact ih hst (fun b hb => hl b (by simp [hb])) h

/-- the strongest mention that comes first decides -/
theorem strongest_kept {d : Bool} {l1 l2 : List Add} {x : Add} {t : SymbolTable} {n : Nat}
    (h : (SymbolTable.new d).addAll (l1 ++ x :: l2) = .ok t)
    (hs : ∀ a ∈ l1 ++ x :: l2, a.mentions n → a.stdBind) (hn : n ≠ 0) (hxm : x.mentions n)
    (hl1 : ∀ a ∈ l1, a.mentions n → a.rank < x.rank) (hl2 : ∀ a ∈ l2, a.mentions n → a.rank ≤ x.rank) :
    ∃ s, t.get (.named n) = some s ∧ s.sym.manner = x.sym.manner := by
  have hnull : ¬ nullAdd.mentions n := fun h => hn h.2.symm
  have hall : ∀ a ∈ nullAdd :: (l1 ++ x :: l2), a.mentions n → a.stdBind := by
    intro a ha ham
    rcases List.mem_cons.1 ha with rfl | ha
    · exact nullAdd_std
    · exact hs a ha ham
  rw [addAll_new] at h
  have hok := addAll_ok h n
  rw [empty_get?] at hok
  have hxs := hs x (by simp) hxm
  have : mentionsOf n (nullAdd :: (l1 ++ x :: l2)) =
      mentionsOf n (nullAdd :: l1) ++ x :: mentionsOf n l2 := by
    rw [← List.cons_append, mentionsOf_append, mentionsOf_cons _ _ _ hxm]
  rw [this] at hok
  obtain ⟨s1, s2, h1, h2, h3⟩ := mergeAll_split hok
  have hs2 : ∃ y, s2 = some y ∧ y.sym.manner = x.sym.manner ∧ std y := by
    cases s1 with
    | none => simp [mergeOne] at h2; exact ⟨_, h2.symm, rfl, hxs⟩
    | some old =>
      have hne : mentionsOf n (nullAdd :: l1) ≠ [] := by
        intro e; rw [e] at h1; simp [mergeAll] at h1
      obtain ⟨y, hy, hM⟩ := mergeAll_merged hne (fun b hb => by
        have := mem_mentionsOf.1 hb
        exact hall b (by rcases List.mem_cons.1 this.1 with h | h <;> simp [h]) this.2) h1
      cases hy
      have hlt : rankOf old < x.rank := by
        rw [hM.rank]
        obtain ⟨b, hb, hbr⟩ := exists_maxRank hne
        rw [← hbr]
        have hb' := mem_mentionsOf.1 hb
        rcases List.mem_cons.1 hb'.1 with rfl | hbl
        · exact absurd hb'.2 hnull
        · exact hl1 b hbl hb'.2
      simp only [mergeOne] at h2
      have := rank_le_two x
      rw [resolve_eq hM.std hxs, if_neg (by omega), if_pos (by omega)] at h2
      simp at h2
      exact ⟨_, h2.symm, rfl, hxs⟩
  obtain ⟨y, rfl, hy, hyst⟩ := hs2
  have hyr : rankOf y = x.rank := by unfold rankOf Add.rank Add.bind; rw [show y.sym.st_info = x.sym.st_info from congrArg (·.1) hy]
  obtain ⟨z, hz, hzy⟩ := mergeAll_manner hyst (fun b hb => by
    have := mem_mentionsOf.1 hb
    exact ⟨hs b (by simp [this.1]) this.2, by rw [hyr]; exact hl2 b this.1 this.2⟩) h3
  exact ⟨z, hz, hzy.trans hy⟩

end SymbolTable

variable {opts : Options} {ops a b : List Op} {sched : Sched} {w w' : Writer} {file : Bytes} {secs : List Section}

/-- the merged symbol of a name, in terms of its first strongest mention -/
theorem GoodLink.strongest (h : GoodLink opts ops sched w w' file secs) {ns nd : List Name} (T : TableFacts ns nd ops w) {s : Sym}
    {sec : Option SectionRef} {n : Name} {path : Path} {r : SymbolRef} (e : ops = a ++ Op.sym s sec n path r :: b) (hn : n ≠ []) (h3 : s.st_info % 16 ≠ 3)
    (hbinds : s.st_info / 16 ≤ 2) (hearlier : ∀ s' sec, Mention a s' sec n → s'.st_info / 16 ≤ 2 ∧ bindRank s' < bindRank s)
    (hlater : ∀ s' sec, Mention b s' sec n → s'.st_info / 16 ≤ 2 ∧ bindRank s' ≤ bindRank s) :
    r = .named (u32 (nameOff ns n)) ∧ n ∈ ns ∧ ∃ x, w.symtab.get r = some x ∧ x.sym.manner = s.manner := by
  have hop : Op.sym s sec n path r ∈ ops := by rw [e]; simp
  have hr := (T.inv.sref _ _ _ _ _ hop).2 h3
  have hns : n ∈ ns := (T.symNames n).2 (.inr (mem_symNames hop))
  refine ⟨hr, hns, ?_⟩
  have hadd := T.inv.sym
  rw [e, symAdds_append, symAdds_cons] at hadd
  have h0 := h.nonzero T hn hns
  have ha : ∀ op ∈ a, op ∈ ops := fun op ho => by rw [e]; simp [ho]
  have hb : ∀ op ∈ b, op ∈ ops := fun op ho => by rw [e]; simp [ho]
  have std : ∀ {x : Add} {s' : Sym}, x.sym = { s' with st_name := u32 (nameOff ns n) } → s'.st_info / 16 ≤ 2 → x.stdBind := by
    intro x s' hx hle
    have : x.bind = s'.st_info / 16 := by unfold Add.bind; rw [hx]
    unfold Add.stdBind
    omega
  have rank : ∀ {x : Add} {s' : Sym}, x.sym = { s' with st_name := u32 (nameOff ns n) } → x.rank = bindRank s' := by
    intro x s' hx
    have : x.bind = s'.st_info / 16 := by unfold Add.bind; rw [hx]
    unfold Add.rank bindRank
    rw [this]
  have hs : ∀ x ∈ symAdds ns a ++ { sym := { s with st_name := u32 (nameOff ns n) }, hash := elfHash n, gnuHash := elfGnuHash n, ref := path } :: symAdds ns b,
      x.mentions (u32 (nameOff ns n)) → x.stdBind := by
    intro x hx hm
    rcases List.mem_append.1 hx with hx | hx
    · obtain ⟨s', sec, hm', hxs⟩ := h.mention_of T hns ha hx hm
      exact std hxs (hearlier s' sec hm').1
    · rcases List.mem_cons.1 hx with rfl | hx
      · exact std rfl hbinds
      · obtain ⟨s', sec, hm', hxs⟩ := h.mention_of T hns hb hx hm
        exact std hxs (hlater s' sec hm').1
  obtain ⟨y, hy, hys⟩ := SymbolTable.strongest_kept hadd hs h0 ⟨h3, rfl⟩ (fun x hx hm => by
      obtain ⟨s', sec, hm', hxs⟩ := h.mention_of T hns ha hx hm
      rw [rank hxs, rank (s' := s) rfl]
      exact (hearlier s' sec hm').2) (fun x hx hm => by
      obtain ⟨s', sec, hm', hxs⟩ := h.mention_of T hns hb hx hm
      rw [rank hxs, rank (s' := s) rfl]
      exact (hlater s' sec hm').2)
  rw [SymbolTable.get_mapSyms] at hy
  obtain ⟨x, hx, rfl⟩ := Option.map_eq_some_iff.1 hy
  exact ⟨x, by rw [hr]; exact hx, hys⟩

theorem placeAt_manner (r : SymbolRef) (l : List (Nat × Nat)) (y : Sym) : (l.foldl (fun y n => placeAt r n.1 n.2 y) y).manner = y.manner := by
  induction l generalizing y with
  | nil => rfl
  | cons n l ih => rw [List.foldl_cons, ih]; rfl

/-- the symbol of the output keeps it -/
theorem GoodLink.manner (h : GoodLink opts ops sched w w' file secs) {ns nd : List Name} (T : TableFacts ns nd ops w) {n : Name} (hns : n ∈ ns)
    (hl : n ∉ linkerSymbols) {x : Symbol} (hx : w.symtab.get (.named (u32 (nameOff ns n))) = some x) :
    ∃ y, symbolsNamed file n = [y] ∧ y.info = x.sym.st_info ∧ y.other = x.sym.st_other ∧ y.size = x.sym.st_size := by
  have ho := T.ordinary h.symstr hns hl
  obtain ⟨st, hst⟩ := h.run.stages
  have hs := h.run.symbol st hst (h.run.unmentioned h.good.clean h.good.refs st ho.toUnbound) h.names
  have hsec := special_other (by rw [st.patched_symstr]; exact ho) st.hspecial
  have hsym := SymbolTable.view_get st.patched_sym (.named (u32 (nameOff ns n)))
  rw [hx] at hsym
  obtain ⟨z, hz, hzx⟩ := Option.map_eq_some_iff.1 hsym
  rw [hsec, hz, Option.map_some] at hs
  obtain ⟨y, hy, hys⟩ := Option.map_eq_some_iff.1 hs
  have hm : y.sym.manner = x.sym.manner := by
    rw [hys, placeAt_manner]
    first | exact congrArg Sym.manner hzx | exact congrArg (fun q : Symbol => q.sym.manner) hzx
  exact ⟨y.sym.toSpec, h.symbol_named T hns hy, congrArg (·.1) hm, congrArg (·.2.1) hm, congrArg (·.2.2) hm⟩

end Dld

namespace Dld
open Writer Spec
namespace Calls
open Linker

variable {env : Env} {l : Linker} {N : List Call → Name → Prop} {loaded pre post : List Loaded} {log : List Call} {x : Loaded}

/-- what `FirstStrongest` says about the calls -/
theorem strongest_call (h : Calls env l N loaded log) (e : loaded = pre ++ x :: post) {j : Nat} {s : Sym} {n : Name}
    (hd : FirstStrongest pre x post j s n) :
    ∃ A B sec y, log = A ++ ⟨x.source, .symbol j, .sym s sec n x.path y⟩ :: B ∧
      (∀ s' sec', Mention (opsOf A) s' sec' n → s'.st_info / 16 ≤ 2 ∧ bindRank s' < bindRank s) ∧
      (∀ s' sec', Mention (opsOf B) s' sec' n → s'.st_info / 16 ≤ 2 ∧ bindRank s' ≤ bindRank s) := by
  have hx : x ∈ loaded := by rw [e]; simp
  obtain ⟨A, B, n', sec, y, hl, hn', _, _⟩ := h.symbol_after hx hd.symbol.1
  rw [hd.symbol.2.1] at hn'
  cases hn'
  refine ⟨A, B, sec, y, hl, ?_, ?_⟩
  · intro s' sec' hm
    obtain ⟨z, hz, j', hj', hbef⟩ := h.mention_call hl hm
    refine ⟨(hd.binds z (by rw [← e]; exact hz) _ _ hj').1, ?_⟩
    rcases h.symbols_before e hl (List.getElem?_eq_some_iff.1 hd.symbol.1).1 hz hbef with h1 | ⟨h1, h2⟩
    · exact hd.before.1 z h1 _ _ hj'
    · rw [h1] at hj'
      exact hd.before.2 _ _ hj' h2
  · rintro s' sec' ⟨⟨p, r, hop⟩, h3⟩
    obtain ⟨z, hz, j', hj', _⟩ := h.mention_call (a := log) (b := []) (by simp) ⟨⟨p, r, by
      rw [hl, opsOf_append]; exact List.mem_append_right _ (List.mem_cons_of_mem _ hop)⟩, h3⟩
    exact hd.binds z (by rw [← e]; exact hz) _ _ hj'

end Calls

variable {env : Env} {l : Linker} {sched : LinkSched} {loaded pre post : List Loaded} {log : List Call} {w w' : Writer} {file : Bytes} {secs : List Section}
  {x : Loaded}

/-- the symbol of the output has binding, type, visibility and size of the first of the strongest mentions of its name -/
theorem LinkRun.strongest (R : LinkRun env l sched loaded log w w' file secs) (e : loaded = pre ++ x :: post) {j : Nat} {s : Sym} {n : Name}
    (hd : FirstStrongest pre x post j s n) : ∃ y, symbolsNamed file n = [y] ∧ y.info = s.st_info ∧ y.other = s.st_other ∧ y.size = s.st_size := by
  obtain ⟨A, B, sec, r, hl, hearly, hlate⟩ := R.calls.strongest_call e hd
  have hops : opsOf log = opsOf A ++ Op.sym s sec n x.path r :: opsOf B := by rw [hl, opsOf_append]; rfl
  obtain ⟨ns, nd, T⟩ := R.good.run.hist.tableFacts
  obtain ⟨hr, hns, z, hz, hzs⟩ := R.good.strongest T hops hd.named hd.symbol.2.2 (hd.binds x (by simp) _ _ hd.symbol).1 hearly hlate
  rw [hr] at hz
  obtain ⟨y, h1, h2, h3, h4⟩ := R.good.manner T hns hd.ordinary hz
  exact ⟨y, h1, h2.trans (congrArg (·.1) hzs), h3.trans (congrArg (·.2.1) hzs), h4.trans (congrArg (·.2.2) hzs)⟩

/-- the first element of a list with a property -/
theorem first_of_mem {α : Type _} {P : α → Prop} {l : List α} (h : ∃ x ∈ l, P x) : ∃ a x b, l = a ++ x :: b ∧ P x ∧ ∀ y ∈ a, ¬ P y := by
  induction l with
  | nil => obtain ⟨_, h, _⟩ := h; cases h
  | cons z l ih =>
    by_cases hz : P z
    · exact ⟨[], z, l, rfl, hz, fun _ h => by cases h⟩
    · obtain ⟨x, hx, hp⟩ := h
      rcases List.mem_cons.1 hx with rfl | hx
      · exact absurd hp hz
      · obtain ⟨a, x, b, e, h1, h2⟩ := ih ⟨x, hx, hp⟩
        refine ⟨z :: a, x, b, by rw [e]; rfl, h1, fun y hy => ?_⟩
        rcases List.mem_cons.1 hy with rfl | hy
        · exact hz
        · exact h2 y hy

theorem least {P : Nat → Prop} {j : Nat} (h : P j) : ∃ k, P k ∧ ∀ i, i < k → ¬ P i := by
  induction j using Nat.strongRecOn with
  | _ j ih =>
    by_cases hex : ∃ i, i < j ∧ P i
    · obtain ⟨i, hi, hp⟩ := hex; exact ih i hi hp
    · exact ⟨j, h, fun i hi hp => hex ⟨i, hi, hp⟩⟩

/-- every name that the files mention, with the bindings local, weak and global, has a first strongest mention -/
theorem FirstStrongest.exists {loaded : List Loaded} {n : Name} (hn : n ≠ []) (ho : n ∉ linkerSymbols) (hm : ∃ t, MentionedIn loaded t n)
    (hb : ∀ t, MentionedIn loaded t n → t.st_info / 16 ≤ 2) : ∃ pre x post j s, loaded = pre ++ x :: post ∧ FirstStrongest pre x post j s n := by
  have mention : ∀ {y : Loaded} {j : Nat} {s : Sym}, y ∈ loaded → SymbolOf y j s n → MentionedIn loaded s n :=
    fun hy hs => ⟨_, hy, List.mem_of_getElem? hs.1, hs.2⟩
  have hmax : ∃ t, MentionedIn loaded t n ∧ ∀ t', MentionedIn loaded t' n → Spec.bindRank t' ≤ Spec.bindRank t := by
    obtain ⟨t, ht⟩ := hm
    obtain ⟨k, ⟨u, hu, hk⟩, hle⟩ := least (P := fun k => ∃ u, MentionedIn loaded u n ∧ 2 - Spec.bindRank u = k) ⟨t, ht, rfl⟩
    refine ⟨u, hu, fun t' ht' => ?_⟩
    have h2 : ∀ s : Sym, Spec.bindRank s ≤ 2 := by intro s; unfold Spec.bindRank; split <;> (try split) <;> omega
    have := h2 u
    have := h2 t'
    by_cases h : 2 - Spec.bindRank t' < k
    · exact absurd ⟨t', ht', rfl⟩ (hle _ h)
    · omega
  obtain ⟨t, ht, htop⟩ := hmax
  obtain ⟨x0, hx0, hts, htn, ht3⟩ := ht
  obtain ⟨j0, hj0⟩ := List.getElem?_of_mem hts
  obtain ⟨pre, x, post, e, ⟨j1, s1, hs1, hr1⟩, hpre⟩ := first_of_mem (P := fun x => ∃ j s, SymbolOf x j s n ∧ Spec.bindRank s = Spec.bindRank t) (l := loaded)
    ⟨x0, hx0, j0, t, ⟨hj0, htn, ht3⟩, rfl⟩
  obtain ⟨j, ⟨s, hs, hr⟩, hj⟩ := least (P := fun j => ∃ s, SymbolOf x j s n ∧ Spec.bindRank s = Spec.bindRank t) ⟨s1, hs1, hr1⟩
  have hin : ∀ y ∈ pre ++ x :: post, y ∈ loaded := fun y hy => by rw [e]; exact hy
  refine ⟨pre, x, post, j, s, e, hn, ho, hs, fun y hy j' s' hs' => ⟨hb _ (mention (hin y hy) hs'), by rw [hr]; exact htop _ (mention (hin y hy) hs')⟩,
    fun y hy j' s' hs' => ?_, fun j' s' hs' hlt => ?_⟩
  · have h1 := htop _ (mention (hin y (List.mem_append_left _ hy)) hs')
    have h2 : Spec.bindRank s' ≠ Spec.bindRank t := fun h => hpre y hy ⟨j', s', hs', h⟩
    omega
  · have h1 := htop _ (mention (hin x (by simp)) hs')
    have h2 : Spec.bindRank s' ≠ Spec.bindRank t := fun h => hj j' hlt ⟨s', hs', h⟩
    omega

end Dld
