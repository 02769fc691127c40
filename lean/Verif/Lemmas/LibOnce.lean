import Verif.Lemmas.Sound3
/-! # No entry of a library is taken twice -/
namespace Dld
open Writer Spec StringTable

/-- calls for libraries -/
def Item.isLib : Item → Bool
  | .dynsym _ => true
  | .needed _ => true
  | _ => false

/-- the calls for libraries, in order -/
def libCalls (log : List Call) : List (Source × Item) := (log.filter fun c => c.item.isLib).map fun c => (c.source, c.item)

theorem libCalls_append (a b : List Call) : libCalls (a ++ b) = libCalls a ++ libCalls b := by simp [libCalls]

/-- the call is for an entry of the library named `n` -/
def EntryOf (elf : ElfFile) (p : Path) (n : Name) (c : Call) : Prop :=
  c.source = .library p ∧ ∃ j s, (c.item = .dynsym j ∨ c.item = .needed j) ∧ elf.dynsyms[j]? = some s ∧ elf.dynName s.st_name = some n

theorem EntryOf.name {elf : ElfFile} {p p' : Path} {n n' : Name} {c c' : Call} (h : EntryOf elf p n c) (h' : EntryOf elf p' n' c')
    (e : (c.source, c.item) = (c'.source, c'.item)) : n = n' := by
  obtain ⟨_, j, s, hj, hs, hn⟩ := h
  obtain ⟨_, j', s', hj', hs', hn'⟩ := h'
  have e2 : c.item = c'.item := congrArg Prod.snd e
  have : j = j' := by
    rcases hj with h1 | h1 <;> rcases hj' with h2 | h2 <;> (rw [h1, h2] at e2; cases e2) <;> rfl
  subst this
  cases hs.symm.trans hs'
  exact Option.some.inj (hn.symm.trans hn')

namespace Linker
variable {env : Env} {l : Linker} {N : List Call → Name → Prop} {members : List Loaded} {log : List Call} {w w' : Writer}

theorem matchDynsym_entries (h : State env l N members log w) {p : Path} {data : Bytes} {elf : ElfFile}
    (hp : p ∈ l.options.sharedLibs.map (·.1)) (hd : env.read p = some data) (he : env.parseElf data = some elf)
    {q : List Call} {n : Name} (hq : q <+: log) (hN : N q n) (syms : List Sym) (k : Nat)
    (hk : ∀ (i : Nat), syms[i]? = elf.dynsyms[k + i]?) {b b' : Bool}
    (hr : foldM' (matchDynsym elf p n) (w, b) syms = .ok (w', b')) :
    ∃ new, State env l N members (log ++ new) w' ∧ (∀ c ∈ new, EntryOf elf p n c) ∧
      (∀ c ∈ new, ∃ j, k ≤ j ∧ (c.item = .dynsym j ∨ c.item = .needed j)) ∧
      (new.map fun c => (c.source, c.item)).Nodup ∧ (new ≠ [] ∨ b = true → b' = true) := by
  induction syms generalizing k log w b with
  | nil =>
    simp only [foldM'] at hr
    cases hr
    exact ⟨[], by simpa using h, (fun _ h => nomatch h), (fun _ h => nomatch h), List.nodup_nil, fun hb => hb.resolve_left fun h => h rfl⟩
  | cons s syms ih =>
    rw [foldM'_cons, bind_ok] at hr
    obtain ⟨⟨w1, b1⟩, h1, h2⟩ := hr
    have hk' : ∀ (i : Nat), syms[i]? = elf.dynsyms[k + 1 + i]? := by
      intro i
      have := hk (i + 1)
      rw [List.getElem?_cons_succ] at this
      rw [this]; congr 1; omega
    have hhead := hk 0
    simp only [List.getElem?_cons_zero, Nat.add_zero] at hhead
    simp only [matchDynsym, bind_ok, orErr_ok] at h1
    obtain ⟨inner, hi, h1⟩ := h1
    by_cases hn : n = inner
    · subst hn
      rw [if_pos rfl] at h1
      simp only [bind_ok, unwrap_ok] at h1
      obtain ⟨⟨w2, y⟩, ha, f, hf, h1⟩ := h1
      cases h1
      have hI := h.import (.dynsym ha) (.dynsym hp hd he hhead.symm hi hq hN) hf (j := k)
      obtain ⟨new, a1, a2, a3, a4, a5⟩ := ih hI (hq.trans (List.prefix_append _ _)) (k + 1) hk' h2
      refine ⟨⟨.library p, .dynsym k, .dynsym s n p y⟩ :: ⟨.library p, .needed k, .needed f⟩ :: new, ?_, ?_, ?_, ?_, ?_⟩
      · have := a1
        rw [List.append_assoc] at this
        exact this
      · intro c hc
        rcases List.mem_cons.1 hc with rfl | hc
        · exact ⟨rfl, k, s, .inl rfl, hhead.symm, hi⟩
        · rcases List.mem_cons.1 hc with rfl | hc
          · exact ⟨rfl, k, s, .inr rfl, hhead.symm, hi⟩
          · exact a2 c hc
      · intro c hc
        rcases List.mem_cons.1 hc with rfl | hc
        · exact ⟨k, Nat.le_refl _, .inl rfl⟩
        · rcases List.mem_cons.1 hc with rfl | hc
          · exact ⟨k, Nat.le_refl _, .inr rfl⟩
          · obtain ⟨j, hj, e⟩ := a3 c hc
            exact ⟨j, by omega, e⟩
      · have hfresh : ∀ i : Item, (i = .dynsym k ∨ i = .needed k) → (Source.library p, i) ∉ new.map fun c => (c.source, c.item) := by
          intro i hi hm
          obtain ⟨c, hc, e⟩ := List.mem_map.1 hm
          obtain ⟨j, hj, e'⟩ := a3 c hc
          have e2 : c.item = i := congrArg Prod.snd e
          rcases e' with e' | e' <;> rcases hi with hi | hi <;> (rw [e', hi] at e2; cases e2) <;> omega
        rw [List.map_cons, List.map_cons, List.nodup_cons, List.nodup_cons]
        refine ⟨fun hm => ?_, hfresh _ (.inr rfl), a4⟩
        rcases List.mem_cons.1 hm with e | hm
        · cases e
        · exact hfresh _ (.inl rfl) hm
      · intro _
        exact a5 (.inr rfl)
    · rw [if_neg hn] at h1
      cases h1
      obtain ⟨new, a1, a2, a3, a4, a5⟩ := ih h hq (k + 1) hk' h2
      refine ⟨new, a1, a2, fun c hc => ?_, a4, a5⟩
      obtain ⟨j, hj, e⟩ := a3 c hc
      exact ⟨j, by omega, e⟩

/-- different symbols have different names -/
theorem Round.inj {q : List Call} {w0 : Writer} {und : List SymbolRef} (hR : Round l N q w0 und) {r r' : SymbolRef} {n : Name} (h : NameAt w0 r n)
    (h' : NameAt w0 r' n) : r = r' := by
  obtain ⟨k, rfl, hk⟩ := h
  obtain ⟨k', rfl, hk'⟩ := h'
  obtain ⟨ns, nd, T⟩ := hR.hist.tableFacts
  rw [(T.symstr.name_some hk).2, (T.symstr.name_some hk').2]

theorem searchLibEntries_entries {q : List Call} {w0 : Writer} {und : List SymbolRef} (hR : Round l N q w0 und)
    (h : State env l N members log w) {p : Path} {data : Bytes} {elf : ElfFile}
    (hp : p ∈ l.options.sharedLibs.map (·.1)) (hd : env.read p = some data) (he : env.parseElf data = some elf)
    (hq : q <+: log) (rs : List SymbolRef) (hrs : ∀ r ∈ rs, r ∈ und) (hnd : rs.Nodup) {f f' : List SymbolRef}
    (hr : foldM' (searchLibEntry elf p) (w, f) rs = .ok (w', f')) :
    ∃ new, State env l N members (log ++ new) w' ∧ (∀ c ∈ new, ∃ r ∈ rs, r ∈ f' ∧ ∃ n, NameAt w0 r n ∧ EntryOf elf p n c) ∧
      (new.map fun c => (c.source, c.item)).Nodup ∧ ∀ r ∈ f, r ∈ f' := by
  induction rs generalizing log w f with
  | nil =>
    simp only [foldM'] at hr
    cases hr
    exact ⟨[], by simpa using h, (fun _ h => nomatch h), List.nodup_nil, fun r hr => hr⟩
  | cons r rs ih =>
    rw [foldM'_cons, bind_ok] at hr
    obtain ⟨⟨w1, f1⟩, h1, h2⟩ := hr
    simp only [searchLibEntry, bind_ok] at h1
    obtain ⟨o, ho, h1⟩ := h1
    obtain ⟨n, rfl, hn, hNn, huniq⟩ := hR.name h hq (hrs r (by simp)) ho
    simp only [bind_ok] at h1
    obtain ⟨⟨w2, b⟩, hm, h1⟩ := h1
    cases h1
    rw [List.nodup_cons] at hnd
    obtain ⟨new, a1, a2, _, a4, a5⟩ := matchDynsym_entries h hp hd he hq hNn elf.dynsyms 0 (by simp) hm
    obtain ⟨new', b1, b2, b3, b4⟩ := ih a1 (hq.trans (List.prefix_append _ _)) (fun r hr => hrs r (by simp [hr])) hnd.2 h2
    refine ⟨new ++ new', by rw [← List.append_assoc]; exact b1, ?_, ?_, ?_⟩
    · intro c hc
      rcases List.mem_append.1 hc with hc | hc
      · have hb := a5 (.inl (List.ne_nil_of_mem hc))
        exact ⟨r, by simp, b4 r (by rw [if_pos hb]; simp), n, hn, a2 c hc⟩
      · obtain ⟨r', g1, g2, g3⟩ := b2 c hc
        exact ⟨r', by simp [g1], g2, g3⟩
    · rw [List.map_append, List.nodup_append]
      refine ⟨a4, b3, ?_⟩
      intro x hx y hy e
      obtain ⟨c, hc, rfl⟩ := List.mem_map.1 hx
      obtain ⟨c', hc', rfl⟩ := List.mem_map.1 hy
      obtain ⟨r', g1, _, m, hm, hE⟩ := b2 c' hc'
      have := (a2 c hc).name hE e
      subst this
      exact hnd.1 (hR.inj hn hm ▸ g1)
    · intro x hx
      refine b4 x ?_
      split
      · exact List.mem_append_left _ hx
      · exact hx

/-- the call is for an entry of a library that has the name of one of the symbols -/
def EntryIn (env : Env) (w0 : Writer) (und : List SymbolRef) (c : Call) : Prop :=
  ∃ p data elf n r, env.read p = some data ∧ env.parseElf data = some elf ∧ EntryOf elf p n c ∧ r ∈ und ∧ NameAt w0 r n

theorem findInLibs_entries {q : List Call} {w0 : Writer} {und0 : List SymbolRef} (hR : Round l N q w0 und0)
    (h : State env l N members log w) (hq : q <+: log) {order : Nat → List SymbolRef → List SymbolRef}
    (hord : ∀ i l, (order i l).Perm l) (ps : List Path) (k : Nat) (hps : ∀ p ∈ ps, p ∈ l.options.sharedLibs.map (·.1))
    {und und' : List SymbolRef} (hund : ∀ r ∈ und, r ∈ und0) (hnd : und.Nodup)
    (hr : foldM' (searchLib env order) (w, und) (ps.zipIdx k) = .ok (w', und')) :
    ∃ new, State env l N members (log ++ new) w' ∧ (∀ c ∈ new, EntryIn env w0 und c) ∧ (new.map fun c => (c.source, c.item)).Nodup := by
  induction ps generalizing k log w und with
  | nil =>
    simp only [List.zipIdx_nil, foldM'] at hr
    cases hr
    exact ⟨[], by simpa using h, (fun _ h => nomatch h), List.nodup_nil⟩
  | cons p ps ih =>
    rw [List.zipIdx_cons, foldM'_cons, bind_ok] at hr
    obtain ⟨⟨w1, u1⟩, h1, h2⟩ := hr
    simp only [searchLib, bind_ok, orErr_ok, unwrap_ok] at h1
    obtain ⟨data, hd, elf, he, ⟨w2, found⟩, hf, h1⟩ := h1
    cases h1
    have hmem : ∀ r, r ∈ order k und ↔ r ∈ und := fun r => (hord k und).mem_iff
    obtain ⟨new, a1, a2, a3, _⟩ := searchLibEntries_entries hR h (hps p (by simp)) hd he hq (order k und)
      (fun r hr => hund r ((hmem r).1 hr)) ((hord k und).nodup_iff.2 hnd) hf
    obtain ⟨new', b1, b2, b3⟩ := ih a1 (hq.trans (List.prefix_append _ _)) (k + 1) (fun p hp => hps p (by simp [hp]))
      (fun r hr => hund r (List.mem_filter.1 hr).1) (hnd.filter _) h2
    refine ⟨new ++ new', by rw [← List.append_assoc]; exact b1, ?_, ?_⟩
    · intro c hc
      rcases List.mem_append.1 hc with hc | hc
      · obtain ⟨r, g1, _, n, g2, g3⟩ := a2 c hc
        exact ⟨p, data, elf, n, r, hd, he, g3, (hmem r).1 g1, g2⟩
      · obtain ⟨p', d', e', n, r, g1, g2, g3, g4, g5⟩ := b2 c hc
        exact ⟨p', d', e', n, r, g1, g2, g3, (List.mem_filter.1 g4).1, g5⟩
    · rw [List.map_append, List.nodup_append]
      refine ⟨a3, b3, ?_⟩
      intro x hx y hy e
      obtain ⟨c, hc, rfl⟩ := List.mem_map.1 hx
      obtain ⟨c', hc', rfl⟩ := List.mem_map.1 hy
      obtain ⟨r, _, g1, n, g2, g3⟩ := a2 c hc
      obtain ⟨p', d', e', n', r', k1, k2, k3, k4, k5⟩ := b2 c' hc'
      have hpp : p' = p := by
        have e1 : c.source = c'.source := congrArg Prod.fst e
        rw [g3.1, k3.1] at e1
        cases e1
        rfl
      subst hpp
      cases hd.symm.trans k1
      cases he.symm.trans k2
      have := g3.name k3 e
      subst this
      have := hR.inj g2 k5
      subst this
      have := (List.mem_filter.1 k4).2
      simp [g1] at this

/-- an entry that was taken gave its name to the program -/
theorem State.taken {sched : LinkSched} (hv : sched.Valid) (h : State env l (Unmet env l sched.symIter) members log w) (hfit : w.symstr.totalLen < 2 ^ 32) {c : Call}
    (hc : c ∈ log) (hl : c.item.isLib = true) :
    ∃ p data elf n, env.read p = some data ∧ env.parseElf data = some elf ∧ EntryOf elf p n c ∧ ImportedIn (opsOf log) n := by
  have dyn : ∀ p j op, (⟨.library p, .dynsym j, op⟩ : Call) ∈ log → ∃ data elf s n, env.read p = some data ∧ env.parseElf data = some elf ∧
      elf.dynsyms[j]? = some s ∧ elf.dynName s.st_name = some n ∧ ImportedIn (opsOf log) n := by
    intro p j op hm
    obtain ⟨a, b, e⟩ := List.append_of_mem hm
    have := h.inv.just a _ b e
    generalize hcc : (⟨.library p, .dynsym j, op⟩ : Call) = cc at this
    cases this with
    | @dynsym p' j' data elf s n y q hp hd he hj hn hq hN =>
      cases hcc
      have hqlog : q <+: log := hq.trans ⟨_, e.symm⟩
      obtain ⟨⟨⟨s0, sec, hmention, _⟩, _, _⟩, _⟩ := hN.spec hv.toSched.symIter hqlog h.inv.hist hfit
      obtain ⟨⟨p0, r0, hop⟩, _⟩ := hmention
      obtain ⟨t, ht⟩ := hq
      refine ⟨data, elf, s, n, hd, he, hj, hn, opsOf a, s, p, y, opsOf b, by rw [e, opsOf_append]; rfl, s0, sec, p0, r0, ?_⟩
      rw [← ht, opsOf_append]
      exact List.mem_append_left _ hop
    | «section» => cases congrArg Call.item hcc
    | symbol => cases congrArg Call.item hcc
    | reloc => cases congrArg Call.item hcc
    | needed => cases congrArg Call.item hcc
  obtain ⟨a, b, e⟩ := List.append_of_mem hc
  cases h.inv.just a c b e with
  | «section» => cases hl
  | symbol => cases hl
  | reloc => cases hl
  | @dynsym p j data elf s n y q hp hd he hj hn hq hN =>
    obtain ⟨data', elf', s', n', g1, g2, g3, g4, g5⟩ := dyn p j _ hc
    exact ⟨p, data', elf', n', g1, g2, ⟨rfl, j, s', .inl rfl, g3, g4⟩, g5⟩
  | @needed p j f b' op hf hb =>
    obtain ⟨data', elf', s', n', g1, g2, g3, g4, g5⟩ := dyn p j op (by rw [e, hb]; simp)
    exact ⟨p, data', elf', n', g1, g2, ⟨rfl, j, s', .inr rfl, g3, g4⟩, g5⟩

theorem libCalls_entries {new : List Call} {w0 : Writer} {und : List SymbolRef} (h : ∀ c ∈ new, EntryIn env w0 und c) :
    libCalls new = new.map fun c => (c.source, c.item) := by
  unfold libCalls
  rw [List.filter_eq_self.2]
  intro c hc
  obtain ⟨p, data, elf, n, r, _, _, ⟨_, j, s, hj, _⟩, _⟩ := h c hc
  rcases hj with hj | hj <;> rw [hj] <;> rfl

theorem resolveLoop_entries {sched : LinkSched} (hv : sched.Valid) (ha : l.archives = []) (hn : NamesSmall env l)
    (hread : ∀ p ∈ l.objects, ∃ d e, env.read p = some d ∧ env.parseElf d = some e)
    (h : State env l (Unmet env l sched.symIter) [] log w) (ho : (libCalls log).Nodup) {fuel round : Nat}
    (hr : resolveLoop env l sched fuel round (w.undefinedSymbols sched.symIter) w = some (.ok w')) :
    ∃ new, State env l (Unmet env l sched.symIter) [] (log ++ new) w' ∧ (libCalls (log ++ new)).Nodup ∧ ∀ c ∈ new, c.item.isLib = true := by
  induction fuel generalizing log w round with
  | zero => cases hr
  | succ fuel ih =>
    rw [resolveLoop] at hr
    split at hr
    · cases hr
    · next w1 cnt h1 =>
      simp only [resolveRound, bind_ok] at h1
      obtain ⟨⟨w2, u2⟩, h2, ⟨w3, u3⟩, h3, h1⟩ := h1
      cases h1
      have hp : sched.archives l.archives = [] := by
        have := hv.archives l.archives
        rw [ha] at this ⊢
        exact this.eq_nil
      rw [processArchives, hp] at h3
      cases h3
      have hR := h.round hv.toSched.symIter
      simp only [findInLibs] at h2
      obtain ⟨new, a1, a2, a3⟩ := findInLibs_entries hR h (List.prefix_refl _) (fun i l => hv.undefLib round i l)
        (l.options.sharedLibs.map (·.1)) 0 (fun p hp => hp) (fun r hr => hr) (h.inv.hist.nodup_undefined hv.toSched.symIter) h2
      have hfit := (h.calls hread).symstr_small h.inv.hist hn
      have hnew : (libCalls (log ++ new)).Nodup := by
        rw [libCalls_append, List.nodup_append, libCalls_entries a2]
        refine ⟨ho, a3, ?_⟩
        intro x hx y hy e
        obtain ⟨c, hc, rfl⟩ := List.mem_map.1 hx
        obtain ⟨c', hc', rfl⟩ := List.mem_map.1 hy
        rw [List.mem_filter] at hc
        obtain ⟨p, data, elf, n, g1, g2, g3, g4⟩ := h.taken hv hfit hc.1 hc.2
        obtain ⟨p', d', e', n', r', k1, k2, k3, k4, k5⟩ := a2 c' hc'
        have hpp : p' = p := by
          have e1 : c.source = c'.source := congrArg Prod.fst e
          rw [g3.1, k3.1] at e1
          cases e1
          rfl
        subst hpp
        cases g1.symm.trans k1
        cases g2.symm.trans k2
        have := g3.name k3 e
        subst this
        exact ((hR.need r' k4 n k5).spec hv.toSched.symIter (List.prefix_refl _) h.inv.hist hfit).1.absent g4
      have hlib : ∀ c ∈ new, c.item.isLib = true := by
        intro c hc
        obtain ⟨p, data, elf, n, r, _, _, ⟨_, j, s, hj, _⟩, _⟩ := a2 c hc
        rcases hj with hj | hj <;> rw [hj] <;> rfl
      split at hr
      · cases hr
        exact ⟨new, a1, hnew, hlib⟩
      · obtain ⟨new', b1, b2, b3⟩ := ih a1 hnew hr
        refine ⟨new ++ new', by rw [← List.append_assoc]; exact b1, by rw [← List.append_assoc]; exact b2, fun c hc => ?_⟩
        exact (List.mem_append.1 hc).elim (hlib c) (b3 c)

theorem State.mono {N' : List Call → Name → Prop} (h : State env l N members log w) (hN : ∀ q n, N q n → N' q n) : State env l N' members log w :=
  ⟨⟨h.inv.hist, fun a c b e => (h.inv.just a c b e).mono (fun _ h => h) fun q n _ => hN q n⟩, fun x hx => (h.archived x hx).mono fun q n _ => hN q n, h.sections, h.others,
    h.needed, h.start, h.once⟩

/-- without needs no library is used -/
theorem State.no_lib (h : State env l (fun _ _ => False) members log w) : libCalls log = [] := by
  have hnolib : ∀ p j op, (⟨.library p, .dynsym j, op⟩ : Call) ∉ log := by
    intro p j op hm
    obtain ⟨a, b, e⟩ := List.append_of_mem hm
    have := h.inv.just a _ b e
    generalize hcc : (⟨.library p, .dynsym j, op⟩ : Call) = cc at this
    cases this with
    | dynsym _ _ _ _ _ _ hN => exact hN
    | «section» => cases congrArg Call.item hcc
    | symbol => cases congrArg Call.item hcc
    | reloc => cases congrArg Call.item hcc
    | needed => cases congrArg Call.item hcc
  unfold libCalls
  rw [List.filter_eq_nil_iff.2, List.map_nil]
  intro c hc hl
  obtain ⟨a, b, e⟩ := List.append_of_mem hc
  cases h.inv.just a c b e with
  | «section» => cases hl
  | symbol => cases hl
  | reloc => cases hl
  | dynsym => exact hnolib _ _ _ hc
  | @needed p j f b' op hf hb => exact hnolib p j op (by rw [e, hb]; simp)

/-- a link of objects and libraries takes no entry of a library twice -/
theorem gathered_entries {sched : LinkSched} (hv : sched.Valid) (ha : l.archives = []) (hn : NamesSmall env l) {fuel : Nat}
    (h : gathered env l sched fuel = some (.ok w)) :
    ∃ log, Calls env l (NeededIn env l) (objectsOf env l) log ∧ Hist l.options (opsOf log) w ∧ (libCalls log).Nodup := by
  unfold gathered at h
  split at h
  · cases h
  · next w0 h0 =>
    split at h
    · cases h
    · next w1 h1 =>
      obtain ⟨log, a1, a2⟩ := loadAll_calls (N := fun _ _ => False) h0 h1
      have hnone := a1.no_lib
      have a1 := a1.mono (N' := Unmet env l sched.symIter) (fun _ _ h => h.elim)
      obtain ⟨new, b1, b2, _⟩ := resolveLoop_entries hv ha hn a2 a1 (by rw [hnone]; exact List.nodup_nil) h
      have hC := b1.calls a2
      rw [List.append_nil] at hC
      exact ⟨_, calls_spec hv hC b1.inv.hist (hC.symstr_small b1.inv.hist hn), b1.inv.hist, b2⟩

end Linker
end Dld
