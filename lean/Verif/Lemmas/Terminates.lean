import Verif.Lemmas.LinkCalls
import Verif.Lemmas.Unresolved
import Verif.Spec.Archive
/-! # Why the resolution loop ends -/
namespace Dld
open Writer Spec StringTable

/-! ## What a merge does to an entry -/

/-- how a binding is preferred -/
def bindRank (b : Nat) : Nat := if b = 0 then 0 else if b = 2 then 1 else 2

/-- a measure of what is known about a symbol -/
def symRank : Option Symbol → Nat
  | none => 0
  | some s => if s.dynamic.isSome then 7 else 1 + 2 * bindRank (stBind s.sym.st_info) + (if s.sym.st_shndx = 0 then 0 else 1)

theorem bindRank_le (b : Nat) : bindRank b ≤ 2 := by unfold bindRank; split <;> (try split) <;> omega

theorem symRank_le (o : Option Symbol) : symRank o ≤ 7 := by
  cases o with
  | none => exact Nat.zero_le _
  | some s =>
    have := bindRank_le (stBind s.sym.st_info)
    simp only [symRank]
    split
    · omega
    · split <;> omega

/-- unresolved, whatever the binding -/
def openRank (k : Nat) : Prop := k = 1 ∨ k = 3 ∨ k = 5

theorem symRank_open {s : Symbol} : openRank (symRank (some s)) ↔ s.dynamic = none ∧ s.sym.st_shndx = 0 := by
  have := bindRank_le (stBind s.sym.st_info)
  unfold openRank
  simp only [symRank]
  cases s.dynamic with
  | some d => simp
  | none =>
    simp only [Option.isSome_none, Bool.false_eq_true, if_false, true_and]
    split <;> constructor <;> intro h
    · assumption
    · omega
    · omega
    · contradiction

theorem resolve_dynamic {old new s : Symbol} (h : SymbolTable.resolve old new = some s) : s.dynamic = old.dynamic := by
  unfold SymbolTable.resolve at h
  split at h
  · cases h
  · split at h
    · cases h; rfl
    · split at h <;> (cases h; rfl)

theorem resolve_rank {old new s : Symbol} (h : SymbolTable.resolve old new = some s) :
    symRank (some old) ≤ symRank (some s) ∧
      (new.sym.st_shndx ≠ 0 → openRank (symRank (some old)) → symRank (some old) < symRank (some s)) := by
  rw [symRank_open]
  have hd := resolve_dynamic h
  simp only [symRank, hd]
  cases ho : old.dynamic with
  | some d => simp
  | none =>
    simp only [Option.isSome_none, Bool.false_eq_true, if_false, true_and]
    rcases SymbolTable.resolve_cases h with ⟨hc, h1, h2⟩ | ⟨_, h1, h2⟩
    · have : bindRank (stBind old.sym.st_info) < bindRank (stBind s.sym.st_info) := by
        rw [h1]
        unfold bindRank
        rcases hc with ⟨h, h' | h'⟩ | ⟨h, h'⟩ <;> rw [h, h'] <;> decide
      constructor
      · split <;> split <;> omega
      · intro _ _
        split <;> split <;> omega
    · rw [h1, h2]
      constructor
      · split
        · split <;> omega
        · exact Nat.le_refl _
      · intro h3 h4
        rw [if_pos h4, if_pos h4, if_neg h3]
        omega

/-! ## What a call does to an entry -/

theorem SymbolTable.addSymbol_rank {t t' : SymbolTable} {s : Sym} {h g : UInt32} {p : Path} {r : SymbolRef}
    (ha : t.addSymbol s h g p = .ok (t', r)) :
    (∀ k, symRank (t.get (.named k)) ≤ symRank (t'.get (.named k))) ∧
      (stType s.st_info ≠ STT_SECTION → s.st_shndx ≠ 0 → openRank (symRank (t.get (.named s.st_name))) →
        symRank (t.get (.named s.st_name)) < symRank (t'.get (.named s.st_name))) := by
  unfold SymbolTable.addSymbol at ha
  simp only at ha
  split at ha
  · next hs =>
    cases ha
    exact ⟨fun k => Nat.le_refl _, fun h => absurd hs h⟩
  · split at ha
    · next old ho =>
      split at ha
      · cases ha
      · next s' hr =>
        cases ha
        have := resolve_rank hr
        simp only [SymbolTable.get, AMap.get?_modify]
        constructor
        · intro k
          split
          · next e => rw [← e, ho]; exact this.1
          · exact Nat.le_refl _
        · intro _ h1 h2
          rw [if_true, ho]
          rw [ho] at h2
          exact this.2 h1 h2
    · next ho =>
      cases ha
      simp only [SymbolTable.get, AMap.get?_append]
      constructor
      · intro k
        cases hk : AMap.get? t.symbols k with
        | none => exact Nat.zero_le _
        | some x => exact Nat.le_refl _
      · intro _ _ h2
        rw [ho] at h2
        rcases h2 with h | h | h <;> exact absurd h (by decide)

/-- where a name is in the symbol table -/
def rankAt (w : Writer) (n : Name) : Nat :=
  match w.symstr.get n with
  | none => 0
  | some e => symRank (w.symtab.get (.named (u32 e.offset)))

theorem rankAt_le (w : Writer) (n : Name) : rankAt w n ≤ 7 := by
  unfold rankAt
  split
  · exact Nat.zero_le _
  · exact symRank_le _

theorem getOrCreate_get {t : StringTable} {n m : Name} {e : Entry} (h : t.get n = some e) : (t.getOrCreate m).2.get n = some e := by
  unfold StringTable.getOrCreate
  split
  · exact h
  · unfold StringTable.get at h ⊢
    simp only [AMap.get?_append]
    cases hn : AMap.get? t.names n with
    | none => rw [hn] at h; cases h
    | some x => rw [hn] at h; exact h

theorem getOrCreate_offset {t : StringTable} {n : Name} {e : Entry} (h : t.get n = some e) : (t.getOrCreate n).1.offset = e.offset := by
  unfold StringTable.get at h
  unfold StringTable.getOrCreate
  cases hn : AMap.get? t.names n with
  | none => rw [hn] at h; cases h
  | some x => rw [hn] at h; cases h; rfl

theorem Step.rank_le {w w' : Writer} {op : Op} (h : Step w op w') (n : Name) : rankAt w n ≤ rankAt w' n := by
  unfold rankAt
  cases hg : w.symstr.get n with
  | none => exact Nat.zero_le _
  | some e =>
    by_cases h1 : symNames [op] = []
    · by_cases h2 : ∀ s n path r, op ≠ .dynsym s n path r
      · have hs := h.strs.1
        rw [h1] at hs
        rw [(h.tables h1 h2).1, hs]
        simp only [StringTable.after, List.foldl_nil, hg]
        exact Nat.le_refl _
      · cases h with
        | dynsym h =>
          simp only [Writer.addDynSymbol] at h
          split at h
          · cases h
          · split at h
            · cases h
              simp only [hg]; exact Nat.le_refl _
            · split at h
              · cases h
              · next r _ _ _ _ _ =>
                cases h
                simp only [hg, SymbolTable.modify, SymbolTable.get, AMap.get?_modify]
                split
                · next he =>
                  cases AMap.get? w.symtab.symbols (u32 e.offset) with
                  | none => exact Nat.zero_le _
                  | some s => exact symRank_le _
                · exact Nat.le_refl _
        | push => exact absurd (fun _ _ _ _ h => nomatch h) h2
        | sym => exact absurd (fun _ _ _ _ h => nomatch h) h2
        | reloc => exact absurd (fun _ _ _ _ h => nomatch h) h2
        | needed => exact absurd (fun _ _ _ _ h => nomatch h) h2
    · cases h with
      | sym h =>
        simp only [Writer.addSymbol] at h
        split at h
        · cases h
        · next ha =>
          simp only [bind_ok] at h
          obtain ⟨w1, hn, h⟩ := h
          cases h
          rw [noteSymbol_rest hn]
          simp only [getOrCreate_get hg]
          exact (SymbolTable.addSymbol_rank ha).1 _
      | push => exact absurd rfl h1
      | dynsym => exact absurd rfl h1
      | reloc => exact absurd rfl h1
      | needed => exact absurd rfl h1

/-- a definition settles a symbol -/
theorem Step.rank_sym {w w' : Writer} {s : Sym} {sec : Option SectionRef} {n : Name} {path : Path} {r : SymbolRef}
    (h : Step w (.sym s sec n path r) w') (ht : stType s.st_info ≠ STT_SECTION) (hd : s.st_shndx ≠ 0) (ho : openRank (rankAt w n)) :
    rankAt w n < rankAt w' n := by
  unfold rankAt at ho ⊢
  cases hg : w.symstr.get n with
  | none =>
    rw [hg] at ho
    exact absurd (show openRank 0 from ho) (by unfold openRank; omega)
  | some e =>
    rw [hg] at ho
    cases h with
    | sym h =>
      simp only [Writer.addSymbol] at h
      split at h
      · cases h
      · next ha =>
        simp only [bind_ok] at h
        obtain ⟨w1, hn, h⟩ := h
        cases h
        rw [noteSymbol_rest hn]
        simp only [getOrCreate_get hg]
        have := (SymbolTable.addSymbol_rank ha).2 ht hd
        rw [getOrCreate_offset hg] at this
        exact this ho

/-- so does an import -/
theorem Step.rank_dynsym {w w' : Writer} {s : Sym} {n : Name} {path : Path} {r : SymbolRef}
    (h : Step w (.dynsym s n path r) w') (ho : rankAt w n ≠ 0) : rankAt w' n = 7 := by
  unfold rankAt at ho ⊢
  cases hg : w.symstr.get n with
  | none => rw [hg] at ho; exact absurd rfl ho
  | some e =>
    rw [hg] at ho
    cases h with
    | dynsym h =>
      simp only [Writer.addDynSymbol] at h
      split at h
      · cases h
      · split at h
        · next hn => rw [hg] at hn; cases hn
        · next e' he' =>
          rw [hg] at he'
          cases he'
          split at h
          · cases h
          · next s hs =>
            cases h
            simp only [hg, SymbolTable.modify, SymbolTable.get, AMap.get?_modify]
            rw [if_true]
            simp only [SymbolTable.get] at hs
            rw [hs]
            rfl

/-! ## Histories -/

theorem Step.unique {w w1 w2 : Writer} {op : Op} (h1 : Step w op w1) (h2 : Step w op w2) : w1 = w2 := by
  cases h1 with
  | push h => cases h2 with | push h' => rw [h] at h'; cases h'; rfl
  | sym h => cases h2 with | sym h' => rw [h] at h'; cases h'; rfl
  | dynsym h => cases h2 with | dynsym h' => rw [h] at h'; cases h'; rfl
  | reloc h => cases h2 with | reloc h' => rw [h] at h'; cases h'; rfl
  | needed => cases h2; rfl

theorem Hist.unique {opts : Options} {ops : List Op} {w1 w2 : Writer} (h1 : Hist opts ops w1) (h2 : Hist opts ops w2) : w1 = w2 := by
  induction h1 generalizing w2 with
  | init h0 =>
    generalize he : ([] : List Op) = l at h2
    cases h2 with
    | init h => rw [h0] at h; cases h; rfl
    | step h hs => simp at he
  | @step ops op w w1 h hs ih =>
    generalize he : ops ++ [op] = l at h2
    cases h2 with
    | init h => simp at he
    | step h' hs' =>
      rw [List.append_singleton_inj] at he
      obtain ⟨rfl, rfl⟩ := he
      rw [ih h'] at hs
      exact hs.unique hs'

theorem Hist.rank_le {opts : Options} {ops : List Op} {w : Writer} (h : Hist opts ops w) {ops' : List Op} {w' : Writer}
    (h' : Hist opts (ops ++ ops') w') (n : Name) : rankAt w n ≤ rankAt w' n := by
  generalize he : ops ++ ops' = l at h'
  induction h' generalizing ops' with
  | init h0 =>
    have : ops = [] := (List.append_eq_nil_iff.1 he).1
    subst this
    rw [h.unique (.init h0)]
    exact Nat.le_refl _
  | @step l op w1 w2 h1 hs ih =>
    rcases List.eq_nil_or_concat ops' with rfl | ⟨l', op', rfl⟩
    · rw [List.append_nil] at he
      subst he
      rw [h.unique (.step h1 hs)]
      exact Nat.le_refl _
    · rw [List.concat_eq_append, ← List.append_assoc, List.append_singleton_inj] at he
      exact Nat.le_trans (ih he.1) (hs.rank_le n)

namespace Linker
variable {env : Env} {l : Linker} {N : List Call → Name → Prop} {members xs : List Loaded} {log new : List Call} {w w' : Writer}

/-! ## Progress -/

theorem unresolved_rank (h : Hist l.options (opsOf log) w) {order : List Nat → List Nat} (ho : ∀ l, (order l).Perm l) {r : SymbolRef}
    (hr : r ∈ w.undefinedSymbols order) {n : Name} (hn : NameAt w r n) : openRank (rankAt w n) := by
  obtain ⟨k, s, rfl, hs, hu⟩ := (mem_undefinedSymbols ho).1 hr
  obtain ⟨k', e, hk⟩ := hn
  cases e
  obtain ⟨ns, nd, T⟩ := h.tableFacts
  obtain ⟨h1, h2⟩ := T.symstr.name_some hk
  obtain ⟨e, h3, h4⟩ := Holds.get_mem T.symstr h1
  obtain ⟨m, _, h5, _⟩ := T.named k s hs
  have : u32 k = k := by rw [h5]; exact Nat.mod_mod _ _
  unfold rankAt
  rw [h3]
  simp only
  rw [h4, ← h2, this, hs, symRank_open]
  simp only [isUnresolved, Bool.and_eq_true, beq_iff_eq, Option.isNone_iff_eq_none] at hu
  exact ⟨hu.2, hu.1.1⟩

/-- the calls of the new members are new -/
theorem new_symbol (h : State env l N members log w) (h' : State env l N (members ++ xs) (log ++ new) w')
    (hread : ∀ p ∈ l.objects, ∃ d e, env.read p = some d ∧ env.parseElf d = some e) {x : Loaded} (hx : x ∈ xs) {s : Sym} (hs : s ∈ x.elf.syms) :
    ∃ a b j n sec y, new = a ++ ⟨x.source, .symbol j, .sym s sec n x.path y⟩ :: b ∧ x.elf.symName s.st_name = some n := by
  have hC := h'.calls hread
  obtain ⟨j, hj⟩ := List.getElem?_of_mem hs
  have hnew : otherCalls new = xs.flatMap Loaded.otherKeys := by
    have e := h'.others
    rw [← List.append_assoc, List.flatMap_append, ← h.others] at e
    unfold otherCalls at e ⊢
    rw [List.filter_append, List.map_append] at e
    exact List.append_cancel_left e
  have hk : (x.source, Item.symbol j) ∈ otherCalls new := by
    rw [hnew, List.mem_flatMap]
    exact ⟨x, hx, List.mem_append_left _ (List.mem_map.2 ⟨j, List.mem_range.2 (List.getElem?_eq_some_iff.1 hj).1, rfl⟩)⟩
  obtain ⟨c, hc, e⟩ := List.mem_map.1 hk
  obtain ⟨a, b, hab⟩ := List.append_of_mem (List.mem_filter.1 hc).1
  have hx' : x ∈ objectsOf env l ++ (members ++ xs) := List.mem_append_right _ (List.mem_append_right _ hx)
  have h1 : c.source = x.source := congrArg Prod.fst e
  have h2 : c.item = .symbol j := congrArg Prod.snd e
  cases hC.just (log ++ a) c b (by rw [hab, List.append_assoc]) with
  | «section» hx' hi ht hn hd => cases h2
  | symbol hy hj' hn hs =>
    cases h2
    have := hC.unique hy hx' h1
    subst this
    rw [hj] at hj'
    cases hj'
    exact ⟨a, b, _, _, _, _, hab, hn⟩
  | reloc hx' hk h0 hs hr hy => cases h2
  | dynsym hp hd he hj hn hq hm => cases h2
  | needed hf => cases h2

/-- the names libraries and archive indexes have -/
def offered (env : Env) (l : Linker) : List Name :=
  (l.options.sharedLibs.map (·.1)).flatMap (fun p => (((env.read p).bind env.parseElf).map fun e =>
    e.dynsyms.filterMap fun s => e.dynName s.st_name).getD []) ++
  l.archives.flatMap fun p => (((env.read p).bind env.parseAr).map fun ar => AMap.keys ar.index).getD []

theorem imported_offered (h : State env l N members (log ++ new) w) {n : Name} (hi : Imports new n) : n ∈ offered env l := by
  obtain ⟨p, j, s, y, hm⟩ := hi
  obtain ⟨a, b, hab⟩ := List.append_of_mem hm
  refine List.mem_append_left _ (List.mem_flatMap.2 ?_)
  have hJ := h.inv.just (log ++ a) _ b (by rw [hab, List.append_assoc])
  generalize hc : (⟨.library p, .dynsym j, .dynsym s n p y⟩ : Call) = c at hJ
  have h2 : Item.dynsym j = c.item := congrArg Call.item (a₁ := ⟨.library p, .dynsym j, .dynsym s n p y⟩) hc
  cases hJ with
  | «section» hx' hi ht hn hd => cases h2
  | symbol hy hj' hn hs => cases h2
  | reloc hx' hk h0 hs hr hy => cases h2
  | needed hf => cases h2
  | dynsym hp hd he hj hn hq hm =>
    cases hc
    refine ⟨p, hp, ?_⟩
    simp only [hd, he, Option.bind_some, Option.map_some, Option.getD_some]
    exact List.mem_filterMap.2 ⟨_, List.mem_of_getElem? hj, hn⟩

theorem provided_offered (h : State env l N (members ++ xs) log w) {n : Name} (hi : Provides env xs n) :
    n ∈ offered env l ∧ ∃ x ∈ xs, ∃ p data ar m, p ∈ l.archives ∧ env.read p = some data ∧ env.parseAr data = some ar ∧
      ar.memberOfSymbol n = some m ∧ ar.get m = some x.data ∧ env.parseElf x.data = some x.elf ∧ x.elf.isObjectFile = true := by
  obtain ⟨x, hx, p, m, start, data, ar, h1, h2, h3, h4, h5, h6⟩ := hi
  have hA := h.archived x (List.mem_append_right _ hx)
  have : p ∈ l.archives ∧ x.elf.isObjectFile = true := by
    cases hA with
    | mk hp hd ha hn hm he ho =>
      cases h1
      exact ⟨hp, ho⟩
  refine ⟨List.mem_append_right _ (List.mem_flatMap.2 ⟨p, this.1, ?_⟩), x, hx, p, data, ar, m, this.1, h2, h3, h4, h5, h6, this.2⟩
  simp only [h2, h3, Option.bind_some, Option.map_some, Option.getD_some]
  exact AMap.mem_keys_of_get? h4

/-- what is left to be known -/
def work (w : Writer) (names : List Name) : Nat := (names.map fun n => 7 - rankAt w n).sum

theorem work_le {names : List Name} (h : ∀ n, rankAt w n ≤ rankAt w' n) : work w' names ≤ work w names := by
  unfold work
  induction names with
  | nil => exact Nat.le_refl _
  | cons n l ih =>
    simp only [List.map_cons, List.sum_cons]
    have := h n
    omega

theorem work_lt {names : List Name} (h : ∀ n, rankAt w n ≤ rankAt w' n) {n : Name} (hn : n ∈ names) (hlt : rankAt w n < rankAt w' n) :
    work w' names < work w names := by
  induction names with
  | nil => cases hn
  | cons m l ih =>
    have h7 := rankAt_le w' n
    rcases List.mem_cons.1 hn with rfl | hn
    · have := work_le (names := l) h
      unfold work at this ⊢
      simp only [List.map_cons, List.sum_cons]
      omega
    · have := ih hn
      have hm := h m
      unfold work at this ⊢
      simp only [List.map_cons, List.sum_cons]
      omega

theorem resolveLoop_ends (ht : TruthfulIndexes env l) {sched : LinkSched} (hv : sched.Valid)
    (hread : ∀ p ∈ l.objects, ∃ d e, env.read p = some d ∧ env.parseElf d = some e)
    (h : State env l (Unmet env l sched.symIter) members log w) {fuel round : Nat} (hf : work w (offered env l) < fuel) :
    resolveLoop env l sched fuel round (w.undefinedSymbols sched.symIter) w ≠ none := by
  induction fuel generalizing members log w round with
  | zero => omega
  | succ fuel ih =>
    rw [resolveLoop]
    split
    · simp
    · next w1 cnt h1 =>
      obtain ⟨new, xs, a1, _, a3⟩ := resolveRound_calls hv h h1
      split
      · simp
      · next hc =>
        refine ih a1 ?_
        obtain ⟨r, hr, n, hn, hp⟩ := a3 hc
        have hopen := unresolved_rank h.inv.hist hv.toSched.symIter hr hn
        have hh := a1.inv.hist
        rw [opsOf_append] at hh
        have hmono := h.inv.hist.rank_le hh
        have key : n ∈ offered env l ∧ rankAt w n < rankAt w1 n := by
          rcases hp with hp | hp
          · refine ⟨imported_offered a1 hp, ?_⟩
            obtain ⟨p, j, s, y, hm⟩ := hp
            obtain ⟨a, b, rfl⟩ := List.append_of_mem hm
            have e : opsOf log ++ opsOf (a ++ ⟨.library p, .dynsym j, .dynsym s n p y⟩ :: b) = (opsOf log ++ opsOf a) ++ .dynsym s n p y :: opsOf b := by
              rw [opsOf_append]; simp [opsOf]
            rw [e] at hh
            obtain ⟨w2, w3, b1, b2, b3⟩ := hh.split rfl
            have h2 := h.inv.hist.rank_le b1 n
            have h3 := b2.rank_dynsym (by rcases hopen with h | h | h <;> omega)
            have h4 := b3.rank_le (ops' := opsOf b) (by simpa using hh) n
            rcases hopen with h | h | h <;> omega
          · obtain ⟨ho, x, hx, p, data, ar, m, hp, hd, ha, hm, hg, he, hob⟩ := provided_offered a1 hp
            refine ⟨ho, ?_⟩
            obtain ⟨s, hs, hsn, hst, hsd⟩ := ht p hp data ar hd ha n m _ _ hm hg he hob
            obtain ⟨a, b, j, n', sec, y, rfl, hn'⟩ := new_symbol h a1 hread hx hs
            rw [hsn] at hn'
            cases hn'
            have e : opsOf log ++ opsOf (a ++ ⟨x.source, .symbol j, .sym s sec n x.path y⟩ :: b) = (opsOf log ++ opsOf a) ++ .sym s sec n x.path y :: opsOf b := by
              rw [opsOf_append]; simp [opsOf]
            rw [e] at hh
            obtain ⟨w2, w3, b1, b2, b3⟩ := hh.split rfl
            have h2 := h.inv.hist.rank_le b1 n
            have h4 := b3.rank_le (ops' := opsOf b) (by simpa using hh) n
            have h5 := b2.rank_le n
            rcases Nat.lt_or_ge (rankAt w n) (rankAt w2 n) with h6 | h6
            · omega
            · have h7 : rankAt w2 n = rankAt w n := by omega
              have h3 := b2.rank_sym hst hsd (by rw [h7]; exact hopen)
              omega
        have := work_lt hmono key.1 key.2
        omega

/-- more rounds do not change the result -/
theorem resolveLoop_mono {sched : LinkSched} {fuel k round : Nat} {und : List SymbolRef} {r : M Writer}
    (h : resolveLoop env l sched fuel round und w = some r) : resolveLoop env l sched (fuel + k) round und w = some r := by
  induction fuel generalizing round und w with
  | zero => cases h
  | succ fuel ih =>
    rw [show fuel + 1 + k = (fuel + k) + 1 by omega]
    rw [resolveLoop] at h ⊢
    split
    · next he => rw [he] at h; exact h
    · next he =>
      rw [he] at h
      simp only [] at h
      split
      · next hc => rw [if_pos hc] at h; exact h
      · next hc =>
        rw [if_neg hc] at h
        exact ih h

theorem link_mono {sched : LinkSched} {fuel k : Nat} {r : M Bytes} (h : link env l sched fuel = some r) : link env l sched (fuel + k) = some r := by
  rw [link_eq, Option.map_eq_some_iff] at h ⊢
  obtain ⟨x, h, hx⟩ := h
  refine ⟨x, ?_, hx⟩
  unfold gathered at h ⊢
  split
  · next e => rw [e] at h; exact h
  · next e =>
    rw [e] at h
    simp only [] at h
    split
    · next e' => rw [e'] at h; exact h
    · next e' =>
      rw [e'] at h
      exact resolveLoop_mono h

end Linker
end Dld
