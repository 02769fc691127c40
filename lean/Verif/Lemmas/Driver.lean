import Verif.Spec.Driver
import Verif.Lemmas.Except
import Verif.Lemmas.AMap
/-! # The calls the driver makes -/
namespace Dld

theorem opsOf_append (a b : List Call) : opsOf (a ++ b) = opsOf a ++ opsOf b := by simp [opsOf]

theorem sectionCalls_append (a b : List Call) : sectionCalls (a ++ b) = sectionCalls a ++ sectionCalls b := by
  simp [sectionCalls]

theorem otherCalls_append (a b : List Call) : otherCalls (a ++ b) = otherCalls a ++ otherCalls b := by
  simp [otherCalls]

theorem SectionAt.append {a : List Call} {src : Source} {i : Nat} {r : SectionRef} (h : SectionAt a src i r) (b : List Call) :
    SectionAt (a ++ b) src i r := by
  obtain ⟨n, sh, d, h⟩ := h
  exact ⟨n, sh, d, List.mem_append_left _ h⟩

theorem SymbolAt.append {a : List Call} {src : Source} {s : Sym} {y : SymbolRef} (h : SymbolAt a src s y) (b : List Call) :
    SymbolAt (a ++ b) src s y := by
  obtain ⟨j, s', sec, n, p, h, e⟩ := h
  exact ⟨j, s', sec, n, p, List.mem_append_left _ h, e⟩

theorem Justified.mono {env : Env} {l : Linker} {N N' : List Call → Name → Prop} {loaded loaded' : List Loaded} {a : List Call}
    {c : Call} (h : Justified env l N loaded a c) (hl : ∀ x ∈ loaded, x ∈ loaded') (hN : ∀ q n, q <+: a → N q n → N' q n) :
    Justified env l N' loaded' a c := by
  cases h with
  | «section» hx hi ht hn hd => exact .section (hl _ hx) hi ht hn hd
  | symbol hx hj hn hs hb => exact .symbol (hl _ hx) hj hn hs hb
  | reloc hx hk h0 hs hr hy => exact .reloc (hl _ hx) hk h0 hs hr hy
  | dynsym hp hd he hj hn hq hm => exact .dynsym hp hd he hj hn hq (hN _ _ hq hm)
  | needed hf hb => exact .needed hf hb

/-- a split of a list with one more element -/
theorem split_snoc {α : Type} {log : List α} {d : α} {a : List α} {c : α} {b : List α} (h : log ++ [d] = a ++ c :: b) :
    (∃ b', b = b' ++ [d] ∧ log = a ++ c :: b') ∨ (b = [] ∧ a = log ∧ c = d) := by
  rcases List.eq_nil_or_concat b with rfl | ⟨b', x, rfl⟩
  · obtain ⟨h1, h2⟩ := List.append_inj' h (by simp)
    cases h2
    exact .inr ⟨rfl, h1.symm, rfl⟩
  · rw [List.concat_eq_append, ← List.cons_append, ← List.append_assoc] at h
    obtain ⟨h1, h2⟩ := List.append_inj' h (by simp)
    cases h2
    exact .inl ⟨b', by simp, h1⟩

namespace Linker

/-- The driver's state between two calls: the calls made so far and the writer they led to. `N` is the
relation between the calls and the names needed after them. -/
structure Inv (env : Env) (l : Linker) (N : List Call → Name → Prop) (loaded : List Loaded) (log : List Call) (w : Writer) :
    Prop where
  hist : Hist l.options (opsOf log) w
  just : ∀ a c b, log = a ++ c :: b → Justified env l N loaded a c

theorem Inv.step {env : Env} {l : Linker} {N : List Call → Name → Prop} {loaded : List Loaded} {log : List Call} {w w' : Writer}
    (h : Inv env l N loaded log w) {c : Call} (hs : Step w c.op w') (hj : Justified env l N loaded log c) :
    Inv env l N loaded (log ++ [c]) w' := by
  refine ⟨?_, ?_⟩
  · rw [opsOf_append]; exact h.hist.step hs
  · intro a d b e
    rcases split_snoc e with ⟨b', rfl, e'⟩ | ⟨rfl, rfl, rfl⟩
    · exact h.just _ _ _ e'
    · exact hj

theorem Inv.load {env : Env} {l : Linker} {N : List Call → Name → Prop} {loaded loaded' : List Loaded} {log : List Call}
    {w : Writer} (h : Inv env l N loaded log w) (hl : ∀ x ∈ loaded, x ∈ loaded') : Inv env l N loaded' log w :=
  ⟨h.hist, fun a c b e => (h.just a c b e).mono hl fun _ _ _ => id⟩

theorem orErr_ok {α : Type} {p : Path} {k : ErrKind} {o : Option α} {a : α} : orErr p k o = .ok a ↔ o = some a := by
  cases o <;> simp [orErr]

theorem mem_skipped {t : Nat} : t ∈ skippedSections ↔ t ∈ auxiliaryTypes := by
  have e : skippedSections = [2, 11, 3, 4, 6, 9, 10] := rfl
  simp only [e, auxiliaryTypes, List.mem_cons, List.not_mem_nil, or_false]
  omega

theorem sectionData_ok {data : Bytes} {sh : SectionHeader} {d : Option Bytes} (h : sectionData data sh = .ok d) :
    SectionBytes data sh d := by
  unfold sectionData at h
  unfold SectionBytes
  have e : SHT_NOBITS = 8 := rfl
  rw [e] at h
  split at h
  · cases h; rw [if_pos (by assumption)]
  · rw [if_neg (by assumption)]
    split at h
    · cases h; exact ⟨by assumption, rfl⟩
    · cases h

theorem symKey_eq {s s' : Sym} (h : symKey s' = symKey s) : { s' with st_value := s.st_value } = s := by
  simp only [symKey, Prod.mk.injEq] at h
  obtain ⟨h1, h2, h3, h4, h5⟩ := h
  cases s; cases s'; simp_all

/-! ## One object file -/

/-- what the driver remembers of the object file `x` after the calls `log` -/
structure Knows (x : Loaded) (log : List Call) (o : Obj) : Prop where
  path : o.path = x.path
  data : o.data = x.data
  elf : o.elf = x.elf
  sec : ∀ i r, AMap.get? o.sectionRelocations i = some r ↔ SectionAt log x.source i r
  sym : ∀ key y, AMap.get? o.symbols key = some y →
    ∃ j s sec n p, (⟨x.source, .symbol j, .sym s sec n p y⟩ : Call) ∈ log ∧ symKey s = key

theorem Knows.append {x : Loaded} {log : List Call} {o : Obj} (h : Knows x log o) {b : List Call}
    (hb : ∀ c ∈ b, c.source = x.source → c.item.isSection = false) : Knows x (log ++ b) o := by
  refine ⟨h.path, h.data, h.elf, ?_, ?_⟩
  · intro i r
    rw [h.sec]
    constructor
    · exact fun h => h.append b
    · rintro ⟨n, sh, d, hm⟩
      rcases List.mem_append.1 hm with hm | hm
      · exact ⟨n, sh, d, hm⟩
      · exact absurd (hb _ hm rfl) (by simp [Item.isSection])
  · intro key y hy
    obtain ⟨j, s, sec, n, p, hm, e⟩ := h.sym key y hy
    exact ⟨j, s, sec, n, p, List.mem_append_left _ hm, e⟩

section
variable {env : Env} {l : Linker} {N : List Call → Name → Prop} {loaded : List Loaded} {x : Loaded}

theorem processSections_from (hx : x ∈ loaded) (shs : List SectionHeader) (k : Nat) (hk : ∀ i, shs[i]? = x.elf.sectionHeaders[k + i]?)
    {log : List Call} {o o' : Obj} {w w' : Writer} (h : Inv env l N loaded log w) (ho : Knows x log o)
    (hlt : ∀ c ∈ log, c.source = x.source → ∃ i < k, c.item = .section i)
    (hr : foldM' processSection (o, w) (shs.zipIdx k) = .ok (o', w')) :
    ∃ new, Inv env l N loaded (log ++ new) w' ∧ Knows x (log ++ new) o' ∧ otherCalls new = [] ∧
      sectionCalls new = ((shs.zipIdx k).filter fun y => y.1.sh_type ∉ auxiliaryTypes).map (fun s => (x.source, Item.section s.2)) ∧
      (∀ c ∈ new, c.source = x.source ∧ c.item.isSection = true) ∧ o'.symbols = o.symbols := by
  induction shs generalizing k log o w with
  | nil =>
    simp only [List.zipIdx_nil, foldM'] at hr
    cases hr
    exact ⟨[], by simpa using h, by simpa using ho, rfl, rfl, by simp, rfl⟩
  | cons sh shs ih =>
    rw [List.zipIdx_cons, foldM'_cons, bind_ok] at hr
    obtain ⟨⟨o1, w1⟩, h1, h2⟩ := hr
    have hk' : ∀ i, shs[i]? = x.elf.sectionHeaders[k + 1 + i]? := by
      intro i
      have := hk (i + 1)
      rw [List.getElem?_cons_succ] at this
      rw [this]; congr 1; omega
    simp only [processSection] at h1
    by_cases hs : sh.sh_type ∈ skippedSections
    · rw [if_pos hs] at h1
      cases h1
      obtain ⟨new, a1, a2, a3, a4, a5, a6⟩ := ih (k + 1) hk' h ho (fun c hc hcs => by
        obtain ⟨i, hi, e⟩ := hlt c hc hcs; exact ⟨i, by omega, e⟩) h2
      refine ⟨new, a1, a2, a3, ?_, a5, a6⟩
      rw [a4, List.zipIdx_cons, List.filter_cons_of_neg (by simpa using mem_skipped.1 hs)]
    · rw [if_neg hs] at h1
      simp only [bind_ok, orErr_ok] at h1
      obtain ⟨name, hn, data, hd, ⟨w2, r⟩, hp, h1⟩ := h1
      cases h1
      have hd' := sectionData_ok hd
      rw [ho.elf] at hn
      rw [ho.data] at hd'
      have hhead := hk 0
      simp only [List.getElem?_cons_zero, Nat.add_zero] at hhead
      let c : Call := ⟨x.source, .section k, .push name sh data r⟩
      have hI := h.step (c := c) (.push hp) (.section hx hhead.symm (fun hm => hs (mem_skipped.2 hm)) hn hd')
      have hK : Knows x (log ++ [c]) { o with sectionRelocations := AMap.insert o.sectionRelocations k r } := by
        refine ⟨ho.path, ho.data, ho.elf, ?_, ?_⟩
        · intro i r'
          rw [AMap.get?_insert]
          split
          · next e =>
            subst e
            constructor
            · intro e; cases e; exact ⟨name, sh, data, by simp [c]⟩
            · rintro ⟨n, sh', d, hm⟩
              rcases List.mem_append.1 hm with hm | hm
              · obtain ⟨i', hi', e⟩ := hlt _ hm rfl
                cases e; omega
              · simp only [c, List.mem_singleton, Call.mk.injEq, Op.push.injEq, true_and] at hm
                rw [hm.2.2.2]
          · next e =>
            rw [ho.sec]
            constructor
            · exact fun h => h.append _
            · rintro ⟨n, sh', d, hm⟩
              rcases List.mem_append.1 hm with hm | hm
              · exact ⟨n, sh', d, hm⟩
              · simp only [c, List.mem_singleton, Call.mk.injEq, Item.section.injEq, true_and] at hm
                exact absurd hm.1 (by first | exact e | exact fun h => e h.symm)
        · intro key y hy
          obtain ⟨j, s, sec, n, p, hm, e⟩ := ho.sym key y hy
          exact ⟨j, s, sec, n, p, List.mem_append_left _ hm, e⟩
      obtain ⟨new, a1, a2, a3, a4, a5, a6⟩ := ih (k + 1) hk' hI hK (by
        intro d hd hds
        rcases List.mem_append.1 hd with hd | hd
        · obtain ⟨i, hi, e⟩ := hlt d hd hds; exact ⟨i, by omega, e⟩
        · simp only [List.mem_singleton] at hd
          subst hd; exact ⟨k, by omega, rfl⟩) h2
      refine ⟨c :: new, ?_, ?_, ?_, ?_, ?_, a6⟩
      · rw [List.append_cons]; exact a1
      · rw [List.append_cons]; exact a2
      · simpa [otherCalls, c, Item.isOther] using a3
      · rw [List.zipIdx_cons, List.filter_cons_of_pos (by simpa using fun hm => hs (mem_skipped.2 hm)), List.map_cons, ← a4]
        simp [sectionCalls, c, Item.isSection]
      · intro d hd
        rcases List.mem_cons.1 hd with rfl | hd
        · exact ⟨rfl, rfl⟩
        · exact a5 d hd

theorem processSections_calls (hx : x ∈ loaded) {log : List Call} {o o' : Obj} {w w' : Writer}
    (h : Inv env l N loaded log w) (ho : Knows x log o) (hf : ∀ c ∈ log, c.source ≠ x.source)
    (hr : processSections o w = .ok (o', w')) :
    ∃ new, Inv env l N loaded (log ++ new) w' ∧ Knows x (log ++ new) o' ∧ otherCalls new = [] ∧
      sectionCalls new = x.sectionKeys ∧ (∀ c ∈ new, c.source = x.source ∧ c.item.isSection = true) := by
  unfold processSections at hr
  rw [ho.elf] at hr
  obtain ⟨new, a1, a2, a3, a4, a5, _⟩ := processSections_from hx x.elf.sectionHeaders 0 (by simp) h ho
    (fun c hc e => absurd e (hf c hc)) hr
  exact ⟨new, a1, a2, a3, a4, a5⟩

/-- the call for a section is a push -/
theorem Inv.sectionAt {log : List Call} {w : Writer} (h : Inv env l N loaded log w) (src : Source) (i : Nat) :
    (src, Item.section i) ∈ sectionCalls log ↔ ∃ r, SectionAt log src i r := by
  simp only [sectionCalls, List.mem_map, List.mem_filter, Prod.mk.injEq]
  constructor
  · rintro ⟨c, ⟨hc, _⟩, rfl, e⟩
    obtain ⟨a, b, e'⟩ := List.append_of_mem hc
    have hj := h.just a c b e'
    cases hj with
    | «section» hx hi ht hn hd => cases e; exact ⟨_, _, _, _, hc⟩
    | symbol => cases e
    | reloc => cases e
    | dynsym => cases e
    | needed => cases e
  · rintro ⟨r, n, sh, d, hm⟩
    exact ⟨_, ⟨hm, rfl⟩, rfl, rfl⟩

theorem processSymbols_from (hx : x ∈ loaded) (syms : List Sym) (k : Nat) (hk : ∀ i, syms[i]? = x.elf.syms[k + i]?)
    {log : List Call} {o o' : Obj} {w w' : Writer} (h : Inv env l N loaded log w) (ho : Knows x log o)
    (hc : ∀ i ∈ x.elf.copied.map (·.2), (x.source, Item.section i) ∈ sectionCalls log)
    (hr : foldM' processSymbol (o, w) syms = .ok (o', w')) :
    ∃ new, Inv env l N loaded (log ++ new) w' ∧ Knows x (log ++ new) o' ∧ sectionCalls new = [] ∧
      otherCalls new = (List.range' k syms.length).map (fun j => (x.source, Item.symbol j)) ∧
      (∀ c ∈ new, c.source = x.source ∧ c.item.isSection = false) ∧
      (∀ s ∈ syms, AMap.get? o'.symbols (symKey s) ≠ none) ∧
      (∀ key, AMap.get? o.symbols key ≠ none → AMap.get? o'.symbols key ≠ none) := by
  induction syms generalizing k log o w with
  | nil =>
    simp only [foldM'] at hr
    cases hr
    exact ⟨[], by simpa using h, by simpa using ho, rfl, rfl, by simp, by simp, fun _ => id⟩
  | cons s syms ih =>
    rw [foldM'_cons, bind_ok] at hr
    obtain ⟨⟨o1, w1⟩, h1, h2⟩ := hr
    have hk' : ∀ i, syms[i]? = x.elf.syms[k + 1 + i]? := by
      intro i
      have := hk (i + 1)
      rw [List.getElem?_cons_succ] at this
      rw [this]; congr 1; omega
    simp only [processSymbol, bind_ok, orErr_ok] at h1
    obtain ⟨name, hn, ⟨w2, y⟩, hp, h1⟩ := h1
    cases h1
    rw [ho.elf] at hn
    rw [ho.path] at hp
    have hhead := hk 0
    simp only [List.getElem?_cons_zero, Nat.add_zero] at hhead
    let c : Call := ⟨x.source, .symbol k, .sym s (AMap.get? o.sectionRelocations s.st_shndx) name x.path y⟩
    have hI := h.step (c := c) (.sym hp) (.symbol hx hhead.symm hn (fun r => ho.sec _ r)
      (fun i hi => (h.sectionAt _ _).1 (hc i hi)))
    have hK0 : Knows x (log ++ [c]) o := ho.append (by simp [c, Item.isSection])
    have hK : Knows x (log ++ [c]) { o with symbols := AMap.insert o.symbols (symKey s) y } := by
      refine ⟨ho.path, ho.data, ho.elf, hK0.sec, ?_⟩
      intro key y' hy
      rw [AMap.get?_insert] at hy
      split at hy
      · next e =>
        cases hy
        exact ⟨k, s, _, name, x.path, List.mem_append_right _ (List.mem_singleton.2 rfl), by first | exact e | exact e.symm⟩
      · exact hK0.sym key y' hy
    obtain ⟨new, a1, a2, a3, a4, a5, a6, a7⟩ := ih (k + 1) hk' hI hK (fun i hi => by
      rw [sectionCalls_append]; exact List.mem_append_left _ (hc i hi)) h2
    have hins : ∀ key, AMap.get? o.symbols key ≠ none ∨ key = symKey s →
        AMap.get? (AMap.insert o.symbols (symKey s) y) key ≠ none := by
      intro key hkey
      rw [AMap.get?_insert]
      split
      · simp
      · next hne =>
        rcases hkey with hkey | hkey
        · exact hkey
        · exact absurd hkey (by first | exact hne | exact fun h => hne h.symm)
    refine ⟨c :: new, ?_, ?_, ?_, ?_, ?_, ?_, ?_⟩
    · rw [List.append_cons]; exact a1
    · rw [List.append_cons]; exact a2
    · simpa [sectionCalls, c, Item.isSection] using a3
    · rw [List.length_cons, List.range'_succ, List.map_cons, ← a4]
      simp [otherCalls, c, Item.isOther]
    · intro d hd
      rcases List.mem_cons.1 hd with rfl | hd
      · exact ⟨rfl, rfl⟩
      · exact a5 d hd
    · intro s' hs'
      rcases List.mem_cons.1 hs' with rfl | hs'
      · exact a7 _ (hins _ (.inr rfl))
      · exact a6 s' hs'
    · intro key hkey
      exact a7 _ (hins _ (.inl hkey))

theorem processSymbols_calls (hx : x ∈ loaded) {log : List Call} {o o' : Obj} {w w' : Writer}
    (h : Inv env l N loaded log w) (ho : Knows x log o)
    (hc : ∀ i ∈ x.elf.copied.map (·.2), (x.source, Item.section i) ∈ sectionCalls log) (hr : processSymbols o w = .ok (o', w')) :
    ∃ new, Inv env l N loaded (log ++ new) w' ∧ Knows x (log ++ new) o' ∧ sectionCalls new = [] ∧
      otherCalls new = (List.range x.elf.syms.length).map (fun j => (x.source, Item.symbol j)) ∧
      (∀ c ∈ new, c.source = x.source ∧ c.item.isSection = false) ∧
      (∀ s ∈ x.elf.syms, AMap.get? o'.symbols (symKey s) ≠ none) := by
  unfold processSymbols at hr
  rw [ho.elf] at hr
  obtain ⟨new, a1, a2, a3, a4, a5, a6, _⟩ := processSymbols_from hx x.elf.syms 0 (by simp) h ho hc hr
  exact ⟨new, a1, a2, a3, by rw [a4, List.range_eq_range'], a5, a6⟩

/-- the sections the driver remembers are those copied -/
theorem Knows.copied {log : List Call} {w : Writer} (h : Inv env l N loaded log w) {o : Obj} (ho : Knows x log o) (i : Nat) :
    (AMap.get? o.sectionRelocations i).isSome ↔ (x.source, Item.section i) ∈ sectionCalls log := by
  rw [h.sectionAt, Option.isSome_iff_exists]
  simp only [ho.sec]

theorem processRelocs_from (hx : x ∈ loaded) {o : Obj} (hsym : ∀ s ∈ x.elf.syms, AMap.get? o.symbols (symKey s) ≠ none)
    (k pos : Nat) (rels : List InReloc) (j : Nat) (hk : ∀ (i : Nat) rel, rels[i]? = some rel → (k, pos, j + i, rel) ∈ x.elf.relocs)
    {log : List Call} {w w' : Writer} (h : Inv env l N loaded log w) (ho : Knows x log o)
    (hc : ∀ i, (x.source, Item.section i) ∈ sectionCalls log ↔ i ∈ x.elf.copied.map (·.2))
    (hr : foldM' (processReloc o pos) w rels = .ok w') :
    ∃ new, Inv env l N loaded (log ++ new) w' ∧ sectionCalls new = [] ∧
      otherCalls new = ((rels.zipIdx j).filter fun y => y.1.r_sym ≠ 0 ∧ pos - 1 ∈ x.elf.copied.map (·.2)).map
        (fun y => (x.source, Item.reloc k y.2)) ∧
      (∀ c ∈ new, c.source = x.source ∧ c.item.isSection = false) := by
  induction rels generalizing j log w with
  | nil =>
    simp only [foldM'] at hr
    cases hr
    exact ⟨[], by simpa using h, rfl, rfl, by simp⟩
  | cons rel rels ih =>
    rw [foldM'_cons, bind_ok] at hr
    obtain ⟨w1, h1, h2⟩ := hr
    have hk' : ∀ (i : Nat) rel, rels[i]? = some rel → (k, pos, j + 1 + i, rel) ∈ x.elf.relocs := by
      intro i rel' hi
      have := hk (i + 1) rel' (by simpa using hi)
      rwa [show j + 1 + i = j + (i + 1) by omega]
    have keep : w1 = w → ¬ (rel.r_sym ≠ 0 ∧ pos - 1 ∈ x.elf.copied.map (·.2)) →
        ∃ new, Inv env l N loaded (log ++ new) w' ∧ sectionCalls new = [] ∧
      otherCalls new = (((rel :: rels).zipIdx j).filter fun y => y.1.r_sym ≠ 0 ∧ pos - 1 ∈ x.elf.copied.map (·.2)).map
        (fun y => (x.source, Item.reloc k y.2)) ∧
      (∀ c ∈ new, c.source = x.source ∧ c.item.isSection = false) := by
      intro e hne
      subst e
      obtain ⟨new, a1, a2, a3, a4⟩ := ih (j + 1) hk' h ho hc h2
      refine ⟨new, a1, a2, ?_, a4⟩
      rw [a3, List.zipIdx_cons, List.filter_cons_of_neg (by simpa using hne)]
    unfold processReloc at h1
    by_cases h0 : rel.r_sym = 0
    · rw [if_pos h0] at h1
      cases h1
      exact keep rfl (fun h => h.1 h0)
    · rw [if_neg h0] at h1
      simp only [bind_ok, unwrap_ok] at h1
      obtain ⟨s, hs, h1⟩ := h1
      rw [ho.elf] at hs
      split at h1
      · cases h1
      · cases hsr : AMap.get? o.sectionRelocations (pos - 1) with
        | none =>
          rw [hsr] at h1
          cases h1
          refine keep rfl (fun hcon => ?_)
          have := (ho.copied h (pos - 1)).2 ((hc _).2 hcon.2)
          rw [hsr] at this
          exact absurd this (by simp)
        | some r =>
          rw [hsr] at h1
          have hcop : pos - 1 ∈ x.elf.copied.map (·.2) := (hc _).1 ((ho.copied h _).1 (by rw [hsr]; rfl))
          cases hy : AMap.get? o.symbols (symKey s) with
          | none => exact absurd hy (hsym s (List.mem_of_getElem? hs))
          | some y =>
            rw [hy] at h1
            simp only at h1
            rw [ho.path] at h1
            obtain ⟨j', s', sec, n, p, hm, hkey⟩ := ho.sym _ _ hy
            have hrel := hk 0 rel (by simp)
            rw [Nat.add_zero] at hrel
            let c : Call := ⟨x.source, .reloc k j, .reloc { r_offset := rel.r_offset, r_info := rel.r_sym * 2 ^ 32 + rel.r_type, r_addend := rel.r_addend.getD 0 } y r x.path⟩
            have hI := h.step (c := c) (.reloc h1) (.reloc hx hrel h0 hs ((ho.sec _ _).1 hsr) ⟨j', s', sec, n, p, hm, symKey_eq hkey⟩)
            obtain ⟨new, a1, a2, a3, a4⟩ := ih (j + 1) hk' hI (ho.append (by simp [c, Item.isSection])) (by
              intro i
              rw [sectionCalls_append, ← hc i]
              simp [sectionCalls, c, Item.isSection]) h2
            refine ⟨c :: new, ?_, ?_, ?_, ?_⟩
            · rw [List.append_cons]; exact a1
            · simpa [sectionCalls, c, Item.isSection] using a2
            · rw [List.zipIdx_cons, List.filter_cons_of_pos (by simpa using ⟨h0, by simpa using hcop⟩), List.map_cons, ← a3]
              simp [otherCalls, c, Item.isOther]
            · intro d hd
              rcases List.mem_cons.1 hd with rfl | hd
              · exact ⟨rfl, rfl⟩
              · exact a4 d hd

theorem processRelocations_from (hx : x ∈ loaded) {o : Obj} (hsym : ∀ s ∈ x.elf.syms, AMap.get? o.symbols (symKey s) ≠ none)
    (rs : List (Nat × List InReloc)) (k : Nat)
    (hk : ∀ (i : Nat) e, rs[i]? = some e → ∀ (j : Nat) rel, e.2[j]? = some rel → (k + i, e.1, j, rel) ∈ x.elf.relocs)
    {log : List Call} {w w' : Writer} (h : Inv env l N loaded log w) (ho : Knows x log o)
    (hc : ∀ i, (x.source, Item.section i) ∈ sectionCalls log ↔ i ∈ x.elf.copied.map (·.2))
    (hr : foldM' (fun w (e : Nat × List InReloc) => foldM' (processReloc o e.1) w e.2) w rs = .ok w') :
    ∃ new, Inv env l N loaded (log ++ new) w' ∧ sectionCalls new = [] ∧
      otherCalls new = (((rs.zipIdx k).flatMap fun x => x.1.2.zipIdx.map fun y => (x.2, x.1.1, y.2, y.1)).filter
          fun y => y.2.2.2.r_sym ≠ 0 ∧ y.2.1 - 1 ∈ x.elf.copied.map (·.2)).map
        (fun y => (x.source, Item.reloc y.1 y.2.2.1)) ∧
      (∀ c ∈ new, c.source = x.source ∧ c.item.isSection = false) := by
  induction rs generalizing k log w with
  | nil =>
    simp only [foldM'] at hr
    cases hr
    exact ⟨[], by simpa using h, rfl, rfl, by simp⟩
  | cons e rs ih =>
    rw [foldM'_cons, bind_ok] at hr
    obtain ⟨w1, h1, h2⟩ := hr
    obtain ⟨new, a1, a2, a3, a4⟩ := processRelocs_from hx hsym k e.1 e.2 0
      (fun i rel hi => by simpa using hk 0 e (by simp) i rel hi) h ho hc h1
    obtain ⟨new', b1, b2, b3, b4⟩ := ih (k + 1)
      (fun i e' hi j rel hj => by
        have := hk (i + 1) e' (by simpa using hi) j rel hj
        rwa [show k + 1 + i = k + (i + 1) by omega]) a1
      (ho.append fun c hc _ => (a4 c hc).2) (by
        intro i
        rw [sectionCalls_append, a2, List.append_nil, hc i]) h2
    refine ⟨new ++ new', ?_, ?_, ?_, ?_⟩
    · rw [← List.append_assoc]; exact b1
    · rw [sectionCalls_append, a2, b2]; rfl
    · rw [otherCalls_append, a3, b3, List.zipIdx_cons, List.flatMap_cons, List.filter_append, List.map_append]
      congr 1
      rw [List.filter_map, List.map_map]
      rfl
    · intro d hd
      rcases List.mem_append.1 hd with hd | hd
      · exact a4 d hd
      · exact b4 d hd

theorem mem_relocs {e : ElfFile} {k : Nat} {r : Nat × List InReloc} (hr : e.shdrRelocs[k]? = some r) {j : Nat} {rel : InReloc}
    (hj : r.2[j]? = some rel) : (k, r.1, j, rel) ∈ e.relocs := by
  simp only [ElfFile.relocs, List.mem_flatMap, List.mem_map]
  exact ⟨(r, k), List.mk_mem_zipIdx_iff_getElem?.2 hr, (rel, j), List.mk_mem_zipIdx_iff_getElem?.2 hj, rfl⟩

/-- the symbols and relocations of a file whose sections have been handed over -/
theorem loadSymbols_calls (hx : x ∈ loaded) {log : List Call} {o : Obj} {w w' : Writer}
    (h : Inv env l N loaded log w) (ho : Knows x log o)
    (hc : ∀ i, (x.source, Item.section i) ∈ sectionCalls log ↔ i ∈ x.elf.copied.map (·.2))
    (hr : loadSymbols w o = .ok w') :
    ∃ new, Inv env l N loaded (log ++ new) w' ∧ sectionCalls new = [] ∧ otherCalls new = x.otherKeys ∧
      (∀ c ∈ new, c.source = x.source ∧ c.item.isSection = false) := by
  simp only [loadSymbols, bind_ok] at hr
  obtain ⟨⟨o1, w1⟩, h1, h2⟩ := hr
  obtain ⟨new, a1, a2, a3, a4, a5, a6⟩ := processSymbols_calls hx h ho (fun i hi => (hc i).2 hi) h1
  simp only [processRelocations] at h2
  rw [a2.elf] at h2
  obtain ⟨new', b1, b2, b3, b4⟩ := processRelocations_from hx a6 x.elf.shdrRelocs 0
    (fun i e hi j rel hj => by simpa using mem_relocs hi hj) a1 a2 (by
      intro i
      rw [sectionCalls_append, a3, List.append_nil, hc i]) h2
  refine ⟨new ++ new', ?_, ?_, ?_, ?_⟩
  · rw [← List.append_assoc]; exact b1
  · rw [sectionCalls_append, a3, b2]; rfl
  · rw [otherCalls_append, a4, b3]; rfl
  · intro d hd
    rcases List.mem_append.1 hd with hd | hd
    · exact a5 d hd
    · exact b4 d hd

end

end Linker
end Dld
