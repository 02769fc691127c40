import Verif.Lemmas.Driver
import Verif.Lemmas.SymbolFile
/-! # The calls of the resolution loop -/
namespace Dld
open Writer Spec StringTable

/-! ## Names of symbols -/

theorem StringTable.Holds.name_some {t : StringTable} {ns : List Name} (h : Holds t ns) {k : Nat} {n : Name} (hk : t.name k = some n) :
    n ∈ ns ∧ k = nameOff ns n := by
  unfold StringTable.name StringTable.nameIn at hk
  rw [h.names, Option.map_eq_some_iff] at hk
  obtain ⟨e, hf, rfl⟩ := hk
  have hm := List.mem_of_find?_eq_some hf
  have he : e.2.2 = k := by simpa using List.find?_some hf
  obtain ⟨h1, h2⟩ := StringTable.mem_lay h.nodup hm
  rw [h2] at he
  simp only [Nat.zero_add] at he
  exact ⟨h1, he.symm⟩

theorem total_le_nameOff {ns ns' : List Name} (hp : ns <+: ns') {n : Name} (hn : n ∉ ns) : total ns ≤ nameOff ns' n := by
  obtain ⟨l, rfl⟩ := hp
  rw [nameOff, List.idxOf_append, if_neg hn, List.take_append, List.take_of_length_le (by omega), total_append]
  omega

variable {opts : Options} {ops ops' : List Op} {w w' : Writer}

theorem Hist.symstr_grows (h : Hist opts ops w) (h' : Hist opts (ops ++ ops') w') :
    ∃ ns ns', ns <+: ns' ∧ Holds w.symstr ns ∧ Holds w'.symstr ns' ∧ ns = internAll [[]] (Dld.symNames ops) := by
  obtain ⟨f, _, h1, _⟩ := h.strs
  obtain ⟨f', _, h2, _⟩ := h'.strs
  refine ⟨_, _, ?_, h1, h2, rfl⟩
  rw [symNames_append, internAll_append]
  exact internAll_prefix _ _

theorem Hist.name_fwd (h : Hist opts ops w) (h' : Hist opts (ops ++ ops') w') {k : Nat} {n : Name}
    (hk : w.symstr.name k = some n) : w'.symstr.name k = some n := by
  obtain ⟨ns, ns', hp, h1, h2, _⟩ := h.symstr_grows h'
  obtain ⟨hn, rfl⟩ := h1.name_some hk
  rw [← nameOff_prefix hp hn]
  exact Holds_name h2 (hp.subset hn)

theorem Hist.name_back (h : Hist opts ops w) (h' : Hist opts (ops ++ ops') w') {k : Nat} {n : Name}
    (hg : (w.symtab.get (.named k)).isSome) (hk : w'.symstr.name k = some n) : w.symstr.name k = some n := by
  obtain ⟨ns, ns', hp, h1, h2, hns⟩ := h.symstr_grows h'
  obtain ⟨hn, e⟩ := h2.name_some hk
  by_cases hm : n ∈ ns
  · rw [e, nameOff_prefix hp hm]; exact Holds_name h1 hm
  · exfalso
    obtain ⟨ns1, nd, hT⟩ := h.tableFacts
    obtain ⟨s, hs⟩ := Option.isSome_iff_exists.1 hg
    obtain ⟨m, hm1, hm2, _⟩ := hT.named k s hs
    have hsub : ns1 = ns := by
      rw [← Holds.keys hT.symstr, Holds.keys h1]
    subst hsub
    have h3 := nameOff_lt hm1
    have h4 := total_le_nameOff hp hm
    have h5 : u32 (nameOff ns1 m) ≤ nameOff ns1 m := Nat.mod_le _ _
    omega

namespace Linker

/-- `n` is the name of a symbol without a definition after the calls `q` -/
def Unmet (env : Env) (l : Linker) (order : List Nat → List Nat) (q : List Call) (n : Name) : Prop :=
  (∃ w k, Hist l.options (opsOf q) w ∧ SymbolRef.named k ∈ w.undefinedSymbols order ∧ w.symstr.name k = some n) ∧ WholeFiles env l q

/-- the driver's state after the object files of the command line were loaded -/
structure State (env : Env) (l : Linker) (N : List Call → Name → Prop) (members : List Loaded) (log : List Call) (w : Writer) :
    Prop where
  inv : Inv env l N (objectsOf env l ++ members) log w
  archived : ∀ x ∈ members, FromArchive env l N log x
  sections : sectionCalls log = (objectsOf env l ++ members).flatMap Loaded.sectionKeys
  others : otherCalls log = (objectsOf env l ++ members).flatMap Loaded.otherKeys
  needed : ∀ a p j op b, log = a ++ ⟨.library p, .dynsym j, op⟩ :: b →
    ∃ f b', b = ⟨.library p, .needed j, .needed f⟩ :: b' ∧ p.file = some f
  start : ∀ c ∈ log, ∀ p m s, c.source = .member p m s → s < log.length
  once : (sectionCalls log).Nodup ∧ (otherCalls log).Nodup

section
variable {env : Env} {l : Linker} {N : List Call → Name → Prop} {members : List Loaded} {log : List Call} {w w' : Writer}

theorem _root_.Dld.FromArchive.append {x : Loaded} (h : FromArchive env l N log x) (new : List Call) :
    FromArchive env l N (log ++ new) x := by
  cases h with
  | mk hp hd ha hn hm he ho hs hq hu hl =>
    exact .mk hp hd ha hn hm he ho (by simp; omega) (by rw [List.take_append_of_le_length hs]; exact hq) hu hl

/-- a library provides a symbol -/
theorem State.import (h : State env l N members log w) {p : Path} {j : Nat} {s : Sym} {n : Name} {y : SymbolRef} {f : Name}
    (hs : Step w (.dynsym s n p y) w') (hj : Justified env l N (objectsOf env l ++ members) log ⟨.library p, .dynsym j, .dynsym s n p y⟩)
    (hf : p.file = some f) :
    State env l N members (log ++ [⟨.library p, .dynsym j, .dynsym s n p y⟩, ⟨.library p, .needed j, .needed f⟩]) (w'.addNeeded f) := by
  have h1 := h.inv.step (c := ⟨.library p, .dynsym j, .dynsym s n p y⟩) hs hj
  have h2 := h1.step (c := ⟨.library p, .needed j, .needed f⟩) .needed (.needed hf rfl)
  refine ⟨by simpa using h2, fun x hx => (h.archived x hx).append _, ?_, ?_, ?_, ?_, ?_⟩
  · rw [sectionCalls_append, h.sections]; simp [sectionCalls, Item.isSection]
  · rw [otherCalls_append, h.others]; simp [otherCalls, Item.isOther]
  · intro a p' j' op b e
    rw [List.append_cons] at e
    rcases split_snoc e with ⟨b', rfl, e'⟩ | ⟨rfl, rfl, e'⟩
    · rcases split_snoc e' with ⟨b'', rfl, e''⟩ | ⟨rfl, rfl, e''⟩
      · obtain ⟨f', b3, rfl, hf'⟩ := h.needed _ _ _ _ _ e''
        exact ⟨f', _, by rw [List.append_assoc, List.cons_append], hf'⟩
      · cases e''
        exact ⟨f, [], rfl, hf⟩
    · cases e'
  · intro c hc p' m s' e
    rcases List.mem_append.1 hc with hc | hc
    · have := h.start c hc p' m s' e
      simp; omega
    · simp only [List.mem_cons, List.not_mem_nil, or_false] at hc
      rcases hc with rfl | rfl <;> cases e
  · rw [sectionCalls_append, otherCalls_append]
    simpa [sectionCalls, otherCalls, Item.isSection, Item.isOther] using h.once

/-! ## Libraries -/

/-- `r` was named `n` when the writer was `w0` -/
def NameAt (w0 : Writer) (r : SymbolRef) (n : Name) : Prop := ∃ k, r = .named k ∧ w0.symstr.name k = some n

/-- the calls that import symbols -/
def onlyLib (new : List Call) : Prop := sectionCalls new = [] ∧ otherCalls new = []

theorem matchDynsym_calls (h : State env l N members log w) {p : Path} {data : Bytes} {elf : ElfFile}
    (hp : p ∈ l.options.sharedLibs.map (·.1)) (hd : env.read p = some data) (he : env.parseElf data = some elf)
    {q : List Call} {n : Name} (hq : q <+: log) (hN : N q n) (syms : List Sym) (k : Nat)
    (hk : ∀ (i : Nat), syms[i]? = elf.dynsyms[k + i]?) {b b' : Bool}
    (hr : foldM' (matchDynsym elf p n) (w, b) syms = .ok (w', b')) :
    ∃ new, State env l N members (log ++ new) w' ∧ onlyLib new ∧
      (b' = true ↔ b = true ∨ ∃ s ∈ syms, elf.dynName s.st_name = some n) ∧
      (b' = true → b = true ∨ ∃ j s y, (⟨.library p, .dynsym j, .dynsym s n p y⟩ : Call) ∈ new) ∧
      (b' = false → new = [] ∧ w' = w) := by
  induction syms generalizing k log w b with
  | nil =>
    simp only [foldM'] at hr
    cases hr
    exact ⟨[], by simpa using h, ⟨rfl, rfl⟩, by simp, fun hb => .inl hb, fun _ => ⟨rfl, rfl⟩⟩
  | cons s syms ih =>
    rw [foldM'_cons, bind_ok] at hr
    obtain ⟨⟨w1, b1⟩, h1, h2⟩ := hr
    have hk' : ∀ (i : Nat), syms[i]? = elf.dynsyms[k + 1 + i]? := by
      intro i
      have := hk (i + 1)
      rw [List.getElem?_cons_succ] at this
      rw [this]; congr 1; omega
    have hhead := hk 0
    simp only [List.getElem?_cons_zero, Nat.add_zero] at hhead
    simp only [matchDynsym, bind_ok, orErr_ok] at h1
    obtain ⟨inner, hi, h1⟩ := h1
    by_cases hn : n = inner
    · subst hn
      rw [if_pos rfl] at h1
      simp only [bind_ok, unwrap_ok] at h1
      obtain ⟨⟨w2, y⟩, ha, f, hf, h1⟩ := h1
      cases h1
      have hI := h.import (.dynsym ha) (.dynsym hp hd he hhead.symm hi hq hN) hf (j := k)
      obtain ⟨new, a1, a2, a3, a4, a5⟩ := ih hI (hq.trans (List.prefix_append _ _)) (k + 1) hk' h2
      refine ⟨⟨.library p, .dynsym k, .dynsym s n p y⟩ :: ⟨.library p, .needed k, .needed f⟩ :: new, ?_, ?_, ?_, ?_, ?_⟩
      · have := a1
        rw [List.append_assoc] at this
        exact this
      · refine ⟨?_, ?_⟩
        · simpa [sectionCalls, Item.isSection] using a2.1
        · simpa [otherCalls, Item.isOther] using a2.2
      · rw [a3]
        simp [hi]
      · intro _
        exact .inr ⟨k, s, y, by simp⟩
      · intro hb
        have := a3.2 (.inl rfl)
        rw [hb] at this; cases this
    · rw [if_neg hn] at h1
      cases h1
      obtain ⟨new, a1, a2, a3, a4, a5⟩ := ih h hq (k + 1) hk' h2
      refine ⟨new, a1, a2, ?_, a4, a5⟩
      rw [a3]
      simp only [List.mem_cons, exists_eq_or_imp, hi, Option.some.injEq]
      constructor
      · rintro (h | h)
        · exact .inl h
        · exact .inr (.inr h)
      · rintro (h | h | h)
        · exact .inl h
        · exact absurd h.symm hn
        · exact .inr h

/-- the round began with the calls `q` and the writer `w0`, of which `und` are unresolved symbols -/
structure Round (l : Linker) (N : List Call → Name → Prop) (q : List Call) (w0 : Writer) (und : List SymbolRef) : Prop where
  hist : Hist l.options (opsOf q) w0
  get : ∀ r ∈ und, ∃ k, r = .named k ∧ (w0.symtab.get (.named k)).isSome
  need : ∀ r ∈ und, ∀ n, NameAt w0 r n → N q n

theorem Round.name {q : List Call} {w0 : Writer} {und : List SymbolRef} (hR : Round l N q w0 und) (h : State env l N members log w)
    (hq : q <+: log) {r : SymbolRef} (hr : r ∈ und) {o : Option Name} (hs : w.symbolName r = .ok o) :
    ∃ n, o = some n ∧ NameAt w0 r n ∧ N q n ∧ ∀ m, NameAt w0 r m → m = n := by
  obtain ⟨k, rfl, hg⟩ := hR.get r hr
  simp only [symbolName, bind_ok, unwrap_ok] at hs
  obtain ⟨n, hn, e⟩ := hs
  cases e
  obtain ⟨t, rfl⟩ := hq
  have hH := h.inv.hist
  rw [opsOf_append] at hH
  have := hR.hist.name_back hH hg hn
  refine ⟨n, rfl, ⟨k, rfl, this⟩, hR.need _ hr _ ⟨k, rfl, this⟩, ?_⟩
  rintro m ⟨k', e, hm⟩
  cases e
  rw [this] at hm
  exact (Option.some.inj hm).symm

theorem searchLibEntries_calls {q : List Call} {w0 : Writer} {und : List SymbolRef} (hR : Round l N q w0 und)
    (h : State env l N members log w) {p : Path} {data : Bytes} {elf : ElfFile}
    (hp : p ∈ l.options.sharedLibs.map (·.1)) (hd : env.read p = some data) (he : env.parseElf data = some elf)
    (hq : q <+: log) (rs : List SymbolRef) (hrs : ∀ r ∈ rs, r ∈ und) {f f' : List SymbolRef}
    (hr : foldM' (searchLibEntry elf p) (w, f) rs = .ok (w', f')) :
    ∃ new, State env l N members (log ++ new) w' ∧ onlyLib new ∧
      (∀ r, r ∈ f' ↔ r ∈ f ∨ (r ∈ rs ∧ ∃ n, NameAt w0 r n ∧ ∃ s ∈ elf.dynsyms, elf.dynName s.st_name = some n)) ∧
      (∀ r ∈ f', r ∈ f ∨ ∃ n, NameAt w0 r n ∧ ∃ j s y, (⟨.library p, .dynsym j, .dynsym s n p y⟩ : Call) ∈ new) ∧
      (f' = [] → new = [] ∧ w' = w) := by
  induction rs generalizing log w f with
  | nil =>
    simp only [foldM'] at hr
    cases hr
    exact ⟨[], by simpa using h, ⟨rfl, rfl⟩, by simp, fun r hb => .inl hb, fun _ => ⟨rfl, rfl⟩⟩
  | cons r rs ih =>
    rw [foldM'_cons, bind_ok] at hr
    obtain ⟨⟨w1, f1⟩, h1, h2⟩ := hr
    simp only [searchLibEntry, bind_ok] at h1
    obtain ⟨o, ho, h1⟩ := h1
    obtain ⟨n, rfl, hn, hNn, huniq⟩ := hR.name h hq (hrs r (by simp)) ho
    simp only [bind_ok] at h1
    obtain ⟨⟨w2, b⟩, hm, h1⟩ := h1
    cases h1
    obtain ⟨new, a1, a2, a3, a4, a5⟩ := matchDynsym_calls h hp hd he hq hNn elf.dynsyms 0 (by simp) hm
    obtain ⟨new', b1, b2, b3, b4, b5⟩ := ih a1 (hq.trans (List.prefix_append _ _)) (fun r hr => hrs r (by simp [hr])) h2
    have hb : b = true ↔ ∃ n, NameAt w0 r n ∧ ∃ s ∈ elf.dynsyms, elf.dynName s.st_name = some n := by
      rw [a3]
      constructor
      · rintro (hb | hb)
        · cases hb
        · exact ⟨n, hn, hb⟩
      · rintro ⟨m, hm1, hm2⟩
        rw [huniq m hm1] at hm2
        exact .inr hm2
    have hmem : ∀ x, x ∈ (if b = true then f ++ [r] else f) ↔ x ∈ f ∨ (x = r ∧ b = true) := by
      intro x
      cases b <;> simp
    refine ⟨new ++ new', ?_, ⟨?_, ?_⟩, ?_, ?_, ?_⟩
    · rw [← List.append_assoc]; exact b1
    · rw [sectionCalls_append, a2.1, b2.1]; rfl
    · rw [otherCalls_append, a2.2, b2.2]; rfl
    · intro x
      rw [b3, hmem, List.mem_cons]
      constructor
      · rintro ((hx | ⟨rfl, hx⟩) | ⟨h1, h2⟩)
        · exact .inl hx
        · exact .inr ⟨.inl rfl, hb.1 hx⟩
        · exact .inr ⟨.inr h1, h2⟩
      · rintro (hx | ⟨hx | g1, g2⟩)
        · exact .inl (.inl hx)
        · exact .inl (.inr ⟨hx, hb.2 (hx ▸ g2)⟩)
        · exact .inr ⟨g1, g2⟩
    · intro x hx
      rcases b4 x hx with hx | ⟨m, hm1, j, s, y, hm2⟩
      · rcases (hmem x).1 hx with hx | ⟨e, hbt⟩
        · exact .inl hx
        · rcases a4 hbt with hx | ⟨j, s, y, hx⟩
          · cases hx
          · exact .inr ⟨n, e ▸ hn, j, s, y, List.mem_append_left _ hx⟩
      · exact .inr ⟨m, hm1, j, s, y, List.mem_append_right _ hm2⟩
    · intro hf
      obtain ⟨rfl, e2⟩ := b5 hf
      have hb : b = false := by
        cases hbt : b with
        | false => rfl
        | true =>
          have := (b3 r).2 (.inl ((hmem r).2 (.inr ⟨rfl, hbt⟩)))
          rw [hf] at this; cases this
      obtain ⟨rfl, e3⟩ := a5 hb
      exact ⟨rfl, e2.trans e3⟩

/-- some library of the list has the name -/
def InLibs (env : Env) (ps : List Path) (n : Name) : Prop :=
  ∃ p ∈ ps, ∃ data e, env.read p = some data ∧ env.parseElf data = some e ∧ ∃ s ∈ e.dynsyms, e.dynName s.st_name = some n

/-- the calls import `n` -/
def Imports (new : List Call) (n : Name) : Prop := ∃ p j s y, (⟨.library p, .dynsym j, .dynsym s n p y⟩ : Call) ∈ new

theorem findInLibs_calls {q : List Call} {w0 : Writer} {und0 : List SymbolRef} (hR : Round l N q w0 und0)
    (h : State env l N members log w) (hq : q <+: log) {order : Nat → List SymbolRef → List SymbolRef}
    (hord : ∀ i l, (order i l).Perm l) (ps : List Path) (k : Nat) (hps : ∀ p ∈ ps, p ∈ l.options.sharedLibs.map (·.1))
    {und und' : List SymbolRef} (hund : ∀ r ∈ und, r ∈ und0)
    (hr : foldM' (searchLib env order) (w, und) (ps.zipIdx k) = .ok (w', und')) :
    ∃ new, State env l N members (log ++ new) w' ∧ onlyLib new ∧ und'.Sublist und ∧
      (∀ r ∈ und, r ∈ und' ↔ ∀ n, NameAt w0 r n → ¬ InLibs env ps n) ∧
      (∀ r ∈ und, r ∉ und' → ∃ n, NameAt w0 r n ∧ Imports new n) ∧ (und' = und → new = [] ∧ w' = w) := by
  induction ps generalizing k log w und with
  | nil =>
    simp only [List.zipIdx_nil, foldM'] at hr
    cases hr
    refine ⟨[], by simpa using h, ⟨rfl, rfl⟩, List.Sublist.refl _, ?_, fun r h1 h2 => absurd h1 h2, fun _ => ⟨rfl, rfl⟩⟩
    intro r hr
    simp [hr, InLibs]
  | cons p ps ih =>
    rw [List.zipIdx_cons, foldM'_cons, bind_ok] at hr
    obtain ⟨⟨w1, u1⟩, h1, h2⟩ := hr
    simp only [searchLib, bind_ok, orErr_ok, unwrap_ok] at h1
    obtain ⟨data, hd, elf, he, ⟨w2, found⟩, hf, h1⟩ := h1
    cases h1
    have hmem : ∀ r, r ∈ order k und ↔ r ∈ und := fun r => (hord k und).mem_iff
    obtain ⟨new, a1, a2, a3, a4, a5⟩ := searchLibEntries_calls hR h (hps p (by simp)) hd he hq (order k und)
      (fun r hr => hund r ((hmem r).1 hr)) hf
    obtain ⟨new', b1, b2, b3, b4, b5, b6⟩ := ih a1 (hq.trans (List.prefix_append _ _)) (k + 1) (fun p hp => hps p (by simp [hp]))
      (fun r hr => hund r (List.mem_filter.1 hr).1) h2
    have hlibs : ∀ n, InLibs env (p :: ps) n ↔ (∃ s ∈ elf.dynsyms, elf.dynName s.st_name = some n) ∨ InLibs env ps n := by
      intro n
      constructor
      · rintro ⟨p', hp', d', e', h1, h2, h3⟩
        rcases List.mem_cons.1 hp' with rfl | hp'
        · rw [hd] at h1; cases h1
          rw [he] at h2; cases h2
          exact .inl h3
        · exact .inr ⟨p', hp', d', e', h1, h2, h3⟩
      · rintro (h3 | ⟨p', hp', h3⟩)
        · exact ⟨p, by simp, data, elf, hd, he, h3⟩
        · exact ⟨p', by simp [hp'], h3⟩
    refine ⟨new ++ new', ?_, ⟨?_, ?_⟩, ?_, ?_, ?_, ?_⟩
    · rw [← List.append_assoc]; exact b1
    · rw [sectionCalls_append, a2.1, b2.1]; rfl
    · rw [otherCalls_append, a2.2, b2.2]; rfl
    · exact b3.trans (List.filter_sublist)
    · intro r hr
      by_cases hfr : r ∈ found
      · have h3 : r ∉ und' := fun hc => by
          have := (List.mem_filter.1 (b3.subset hc)).2
          simp [hfr] at this
        rcases (a3 r).1 hfr with hc | ⟨_, n, hn, hs⟩
        · cases hc
        · exact ⟨fun hc => absurd hc h3, fun hc => absurd ((hlibs n).2 (.inl hs)) (hc n hn)⟩
      · have hru : r ∈ und.filter (fun r => r ∉ found) := List.mem_filter.2 ⟨hr, by simpa using hfr⟩
        rw [b4 r hru]
        constructor
        · intro hall n hn hc
          rcases (hlibs n).1 hc with hc | hc
          · exact hfr ((a3 r).2 (.inr ⟨(hmem r).2 hr, n, hn, hc⟩))
          · exact hall n hn hc
        · exact fun hall n hn hc => hall n hn ((hlibs n).2 (.inr hc))
    · intro r hr hnr
      by_cases hfr : r ∈ found
      · rcases a4 r hfr with hc | ⟨n, hn, j, s, y, hc⟩
        · cases hc
        · exact ⟨n, hn, p, j, s, y, List.mem_append_left _ hc⟩
      · have hru : r ∈ und.filter (fun r => r ∉ found) := List.mem_filter.2 ⟨hr, by simpa using hfr⟩
        obtain ⟨n, hn, p', j, s, y, hc⟩ := b5 r hru hnr
        exact ⟨n, hn, p', j, s, y, List.mem_append_right _ hc⟩
    · intro e
      subst e
      have hfe : und'.filter (fun r => r ∉ found) = und' := (b3.eq_of_length_le (List.length_filter_le _ _)).symm
      have hnil : found = [] := by
        cases hfn : found with
        | nil => rfl
        | cons r rest =>
          exfalso
          have hr : r ∈ found := by rw [hfn]; simp
          rcases (a3 r).1 hr with hc | ⟨hc, _⟩
          · cases hc
          · have h3 := (hmem r).1 hc
            rw [← hfe] at h3
            have := (List.mem_filter.1 h3).2
            simp [hr] at this
      obtain ⟨rfl, e2⟩ := a5 hnil
      obtain ⟨rfl, e3⟩ := b6 hfe.symm
      exact ⟨rfl, e3.trans e2⟩

/-! ## Archives -/

/-- some archive index has the name -/
def InArchive (env : Env) (ps : List Path) (n : Name) : Prop :=
  ∃ p ∈ ps, ∃ data ar, env.read p = some data ∧ env.parseAr data = some ar ∧ (ar.memberOfSymbol n).isSome

/-- a linked archive member is listed under that name in the index of its archive -/
def Provides (env : Env) (ms : List Loaded) (n : Name) : Prop :=
  ∃ x ∈ ms, ∃ p m start data ar, x.source = .member p m start ∧ env.read p = some data ∧ env.parseAr data = some ar ∧
    ar.memberOfSymbol n = some m ∧ ar.get m = some x.data ∧ env.parseElf x.data = some x.elf

theorem toElfObject_ok {path : Path} {data : Bytes} {o : Option Obj} (h : toElfObject env path data = .ok o) :
    ∃ e, env.parseElf data = some e ∧ o = if e.isObjectFile then some { path := path, data := data, elf := e } else none := by
  simp only [toElfObject, bind_ok, orErr_ok] at h
  obtain ⟨e, he, h⟩ := h
  cases h
  exact ⟨e, he, rfl⟩

theorem knows_new {x : Loaded} (hf : ∀ c ∈ log, c.source ≠ x.source) :
    Knows x log { path := x.path, data := x.data, elf := x.elf } := by
  refine ⟨rfl, rfl, rfl, ?_, ?_⟩
  · intro i r
    simp only [AMap.get?]
    constructor
    · intro e; cases e
    · rintro ⟨n, sh, d, hm⟩; exact absurd rfl (hf _ hm)
  · intro key y hy; simp [AMap.get?] at hy

theorem not_mem_sectionCalls {src : Source} (hf : ∀ c ∈ log, c.source ≠ src) (i : Item) : (src, i) ∉ sectionCalls log := by
  simp only [sectionCalls, List.mem_map, List.mem_filter, Prod.mk.injEq, not_exists, not_and]
  intro c hc e
  exact absurd e (hf c hc.1)

theorem mem_sectionKeys {x : Loaded} {i : Nat} : (x.source, Item.section i) ∈ x.sectionKeys ↔ i ∈ x.elf.copied.map (·.2) := by
  simp [Loaded.sectionKeys]

theorem zipIdx_snd {α : Type} (l : List α) (k : Nat) : (l.zipIdx k).map (·.2) = List.range' k l.length := by
  induction l generalizing k with
  | nil => rfl
  | cons a l ih => rw [List.zipIdx_cons, List.map_cons, ih, List.length_cons, List.range'_succ]

/-- relocations have different numbers -/
theorem relocs_nodup (e : ElfFile) : (e.relocs.map fun y => (y.1, y.2.2.1)).Nodup := by
  unfold ElfFile.relocs
  have : ∀ (rs : List (Nat × List InReloc)) (k : Nat), (((rs.zipIdx k).flatMap fun x => x.1.2.zipIdx.map fun y => (x.2, x.1.1, y.2, y.1)).map
      fun y => (y.1, y.2.2.1)).Nodup ∧ ∀ z ∈ (((rs.zipIdx k).flatMap fun x => x.1.2.zipIdx.map fun y => (x.2, x.1.1, y.2, y.1)).map fun y => (y.1, y.2.2.1)), k ≤ z.1 := by
    intro rs
    induction rs with
    | nil => intro k; simp
    | cons r rs ih =>
      intro k
      obtain ⟨h1, h2⟩ := ih (k + 1)
      rw [List.zipIdx_cons, List.flatMap_cons, List.map_append]
      have he : ((r.2.zipIdx.map fun y => (k, r.1, y.2, y.1)).map fun y => (y.1, y.2.2.1)) = (List.range' 0 r.2.length).map fun j => (k, j) := by
        rw [← zipIdx_snd, List.map_map, List.map_map]; rfl
      refine ⟨List.nodup_append.2 ⟨?_, h1, ?_⟩, ?_⟩
      · rw [he]
        exact List.Pairwise.map _ (fun a b h e => h (by cases e; rfl)) List.nodup_range'
      · intro a ha b hb e
        rw [he] at ha
        obtain ⟨j, _, rfl⟩ := List.mem_map.1 ha
        have := h2 b hb
        rw [← e] at this
        simp only at this
        omega
      · intro z hz
        rcases List.mem_append.1 hz with hz | hz
        · rw [he] at hz
          obtain ⟨j, _, rfl⟩ := List.mem_map.1 hz
          exact Nat.le_refl _
        · have := h2 z hz
          omega
  exact (this e.shdrRelocs 0).1

/-- nothing of a file is listed twice -/
theorem keys_nodup (x : Loaded) : x.sectionKeys.Nodup ∧ x.otherKeys.Nodup := by
  constructor
  · unfold Loaded.sectionKeys ElfFile.copied
    have h1 : (x.elf.sectionHeaders.zipIdx.map (·.2)).Nodup := by rw [zipIdx_snd]; exact List.nodup_range'
    have h2 := List.Sublist.nodup (List.filter_sublist.map _) h1 (l₁ := (x.elf.sectionHeaders.zipIdx.filter fun x => x.1.sh_type ∉ auxiliaryTypes).map (·.2))
    rw [List.Nodup, List.pairwise_map] at h2 ⊢
    exact h2.imp fun h e => h (by simp only [Prod.mk.injEq, Item.section.injEq, true_and] at e; exact e)
  · unfold Loaded.otherKeys
    refine List.nodup_append.2 ⟨?_, ?_, ?_⟩
    · exact List.Pairwise.map _ (fun a b h e => h (by cases e; rfl)) List.nodup_range
    · have h2 := List.Sublist.nodup (List.filter_sublist.map _) (relocs_nodup x.elf) (l₁ := x.elf.usedRelocs.map fun y => (y.1, y.2.2.1))
      rw [List.Nodup, List.pairwise_map] at h2 ⊢
      exact h2.imp fun h e => h (by simp only [Prod.mk.injEq, Item.reloc.injEq, true_and] at e; rw [e.1, e.2])
    · intro a ha b hb e
      obtain ⟨_, _, rfl⟩ := List.mem_map.1 ha
      obtain ⟨_, _, rfl⟩ := List.mem_map.1 hb
      cases e

theorem keys_source {x : Loaded} {k : Source × Item} (h : k ∈ x.sectionKeys ∨ k ∈ x.otherKeys) : k.1 = x.source := by
  rcases h with h | h
  · obtain ⟨_, _, rfl⟩ := List.mem_map.1 h; rfl
  · rcases List.mem_append.1 h with h | h <;> (obtain ⟨_, _, rfl⟩ := List.mem_map.1 h; rfl)

theorem calls_source {k : Source × Item} (h : k ∈ sectionCalls log ∨ k ∈ otherCalls log) : ∃ c ∈ log, c.source = k.1 := by
  rcases h with h | h <;> (obtain ⟨c, hc, rfl⟩ := List.mem_map.1 h; exact ⟨c, (List.mem_filter.1 hc).1, rfl⟩)

/-- the calls for an object file follow -/
theorem State.loaded (h : State env l N members log w) {x : Loaded} {new : List Call} (hx : FromArchive env l N (log ++ new) x)
    (hi : Inv env l N (objectsOf env l ++ (members ++ [x])) (log ++ new) w') (hs : sectionCalls new = x.sectionKeys)
    (ho : otherCalls new = x.otherKeys) (hn : ∀ c ∈ new, c.source = x.source) (hsrc : ∃ p m, x.source = .member p m log.length) :
    State env l N (members ++ [x]) (log ++ new) w' := by
  obtain ⟨p0, m0, hsrc⟩ := hsrc
  have hdis : ∀ k, (k ∈ sectionCalls log ∨ k ∈ otherCalls log) → k ∈ x.sectionKeys ∨ k ∈ x.otherKeys → False := by
    intro k h1 h2
    obtain ⟨c, hc, e⟩ := calls_source h1
    rw [keys_source h2, hsrc] at e
    have := h.start c hc _ _ _ e
    omega
  refine ⟨hi, ?_, ?_, ?_, ?_, ?_, ?_⟩
  · intro y hy
    rcases List.mem_append.1 hy with hy | hy
    · exact (h.archived y hy).append _
    · rw [List.mem_singleton] at hy; subst hy; exact hx
  · rw [sectionCalls_append, h.sections, hs, ← List.append_assoc, List.flatMap_append]; simp
  · rw [otherCalls_append, h.others, ho, ← List.append_assoc, List.flatMap_append]; simp
  · intro a p j op b e
    rcases List.append_eq_append_iff.1 e with ⟨t, h1, h2⟩ | ⟨t, h1, h2⟩
    · have := hn ⟨.library p, .dynsym j, op⟩ (by rw [h2]; simp)
      rw [hsrc] at this; cases this
    · cases t with
      | nil =>
        have := hn ⟨.library p, .dynsym j, op⟩ (by rw [List.nil_append] at h2; rw [← h2]; simp)
        rw [hsrc] at this; cases this
      | cons c t =>
        rw [List.cons_append] at h2
        cases h2
        obtain ⟨f, b', rfl, hf⟩ := h.needed _ _ _ _ _ h1
        exact ⟨f, b' ++ new, by simp, hf⟩
  · intro c hc p m s e
    rcases List.mem_append.1 hc with hc' | hc'
    · have := h.start c hc' p m s e
      simp; omega
    · rw [hn c hc', hsrc] at e
      cases e
      have := List.length_pos_of_mem hc'
      simp; omega
  · rw [sectionCalls_append, otherCalls_append, hs, ho]
    exact ⟨List.nodup_append.2 ⟨h.once.1, (keys_nodup x).1, fun a ha b hb e => hdis a (.inl ha) (.inl (e ▸ hb))⟩,
      List.nodup_append.2 ⟨h.once.2, (keys_nodup x).2, fun a ha b hb e => hdis a (.inr ha) (.inr (e ▸ hb))⟩⟩

theorem linkMember_calls (h : State env l N members log w) {p : Path} {data : Bytes} {ar : ArFile} {n : Name} {m : Bytes}
    {q : List Call} (hp : p ∈ l.archives) (hd : env.read p = some data) (ha : env.parseAr data = some ar)
    (hn : ar.memberOfSymbol n = some m) (hq : q <+: log) (hN : N q n) (hl : NotInLibs env l n)
    (hr : linkMember env p ar w m = .ok w') :
    ∃ new x, State env l N (members ++ [x]) (log ++ new) w' ∧ x.source = .member p m log.length ∧ ar.get m = some x.data ∧
      env.parseElf x.data = some x.elf := by
  simp only [linkMember, bind_ok, unwrap_ok] at hr
  obtain ⟨d, hg, obj, ho, o, rfl, ⟨o1, w1⟩, h1, ⟨o2, w2⟩, h2, h3⟩ := hr
  obtain ⟨e, he, ho⟩ := toElfObject_ok ho
  have hobj : e.isObjectFile = true := by
    cases hb : e.isObjectFile with
    | true => rfl
    | false => rw [hb] at ho; cases ho
  rw [if_pos hobj] at ho
  cases ho
  let x : Loaded := ⟨.member p m log.length, p, d, e⟩
  have hfresh : ∀ c ∈ log, c.source ≠ x.source := by
    intro c hc e
    have := h.start c hc _ _ _ e
    omega
  have hxm : x ∈ objectsOf env l ++ (members ++ [x]) := by simp
  have hI := h.inv.load (loaded' := objectsOf env l ++ (members ++ [x])) (by
    intro y hy; rw [← List.append_assoc]; exact List.mem_append_left _ hy)
  obtain ⟨new, a1, a2, a3, a4, a5⟩ := processSections_calls hxm hI (knows_new hfresh) hfresh h1
  obtain ⟨new', b1, b2, b3, b4⟩ := loadSymbols_calls hxm a1 a2 (by
    intro i
    rw [sectionCalls_append, List.mem_append, a4, mem_sectionKeys]
    exact ⟨fun h => h.resolve_left (not_mem_sectionCalls hfresh _), .inr⟩)
    (by simp only [loadSymbols, bind_ok]; exact ⟨_, h2, h3⟩)
  rw [List.append_assoc] at b1
  refine ⟨new ++ new', x, h.loaded ?_ b1 ?_ ?_ ?_ ⟨p, m, rfl⟩, rfl, hg, he⟩
  · exact .mk hp hd ha hn hg he hobj (by simp) (by rw [List.take_left]; exact hq) hN hl
  · rw [sectionCalls_append, a4, b2, List.append_nil]
  · rw [otherCalls_append, a3, b3, List.nil_append]
  · intro c hc
    rcases List.mem_append.1 hc with hc | hc
    · exact (a5 c hc).1
    · exact (b4 c hc).1

theorem linkMembers_calls (h : State env l N members log w) {p : Path} {data : Bytes} {ar : ArFile} 
    {q : List Call} (hp : p ∈ l.archives) (hd : env.read p = some data) (ha : env.parseAr data = some ar) (hq : q <+: log)
    (ms : List Bytes) (hms : ∀ m ∈ ms, ∃ n, ar.memberOfSymbol n = some m ∧ N q n ∧ NotInLibs env l n)
    (hr : foldM' (linkMember env p ar) w ms = .ok w') :
    ∃ new xs, State env l N (members ++ xs) (log ++ new) w' ∧
      (∀ m ∈ ms, ∃ x ∈ xs, ∃ start, x.source = .member p m start ∧ ar.get m = some x.data ∧ env.parseElf x.data = some x.elf) := by
  induction ms generalizing members log w with
  | nil =>
    simp only [foldM'] at hr
    cases hr
    exact ⟨[], [], by simpa using h, by simp⟩
  | cons m ms ih =>
    rw [foldM'_cons, bind_ok] at hr
    obtain ⟨w1, h1, h2⟩ := hr
    obtain ⟨n, hn1, hn2, hn3⟩ := hms m (by simp)
    obtain ⟨new, x, a1, a2, a3, a4⟩ := linkMember_calls h hp hd ha hn1 hq hn2 hn3 h1
    obtain ⟨new', xs, b1, b2⟩ := ih a1 (hq.trans (List.prefix_append _ _)) (fun m hm => hms m (by simp [hm])) h2
    refine ⟨new ++ new', x :: xs, ?_, ?_⟩
    · rw [List.append_assoc, List.append_assoc] at b1
      exact b1
    · intro m' hm'
      rcases List.mem_cons.1 hm' with rfl | hm'
      · exact ⟨x, by simp, _, a2, a3, a4⟩
      · obtain ⟨y, hy, h⟩ := b2 m' hm'
        exact ⟨y, by simp [hy], h⟩

theorem searchArEntries_ok {q : List Call} {w0 : Writer} {und : List SymbolRef} (hR : Round l N q w0 und)
    (h : State env l N members log w) {ar : ArFile} (hq : q <+: log) (rs : List SymbolRef) (hrs : ∀ r ∈ rs, r ∈ und)
    {f f' : List SymbolRef} {ms ms' : List Bytes} (hr : foldM' (searchArEntry ar w) (f, ms) rs = .ok (f', ms')) :
    (∀ r, r ∈ f' ↔ r ∈ f ∨ (r ∈ rs ∧ ∃ n, NameAt w0 r n ∧ (ar.memberOfSymbol n).isSome)) ∧
    (∀ m, m ∈ ms' ↔ m ∈ ms ∨ ∃ r ∈ rs, ∃ n, NameAt w0 r n ∧ ar.memberOfSymbol n = some m) := by
  induction rs generalizing f ms with
  | nil =>
    simp only [foldM'] at hr
    cases hr
    simp
  | cons r rs ih =>
    rw [foldM'_cons, bind_ok] at hr
    obtain ⟨⟨f1, ms1⟩, h1, h2⟩ := hr
    simp only [searchArEntry, bind_ok] at h1
    obtain ⟨o, ho, h1⟩ := h1
    obtain ⟨n, rfl, hn, hNn, huniq⟩ := hR.name h hq (hrs r (by simp)) ho
    simp only at h1
    obtain ⟨a1, a2⟩ := ih (fun r hr => hrs r (by simp [hr])) h2
    cases hm : ar.memberOfSymbol n with
    | none =>
      rw [hm] at h1
      cases h1
      refine ⟨?_, ?_⟩
      · intro x
        rw [a1, List.mem_cons]
        constructor
        · rintro (hx | ⟨g1, g2⟩)
          · exact .inl hx
          · exact .inr ⟨.inr g1, g2⟩
        · rintro (hx | ⟨g1 | g1, k, g2, g3⟩)
          · exact .inl hx
          · rw [huniq k (g1 ▸ g2), hm] at g3; cases g3
          · exact .inr ⟨g1, k, g2, g3⟩
      · intro x
        rw [a2]
        constructor
        · rintro (hx | ⟨r', g1, g2⟩)
          · exact .inl hx
          · exact .inr ⟨r', by simp [g1], g2⟩
        · rintro (hx | ⟨r', g1, k, g2, g3⟩)
          · exact .inl hx
          · rcases List.mem_cons.1 g1 with g1 | g1
            · rw [huniq k (g1 ▸ g2), hm] at g3; cases g3
            · exact .inr ⟨r', g1, k, g2, g3⟩
    | some m =>
      rw [hm] at h1
      cases h1
      refine ⟨?_, ?_⟩
      · intro x
        rw [a1, List.mem_cons, List.mem_append, List.mem_singleton]
        constructor
        · rintro ((hx | hx) | ⟨g1, g2⟩)
          · exact .inl hx
          · exact .inr ⟨.inl hx, n, hx ▸ hn, by rw [hm]; rfl⟩
          · exact .inr ⟨.inr g1, g2⟩
        · rintro (hx | ⟨g1 | g1, g2⟩)
          · exact .inl (.inl hx)
          · exact .inl (.inr g1)
          · exact .inr ⟨g1, g2⟩
      · intro x
        have hmem : x ∈ (if m ∈ ms then ms else ms ++ [m]) ↔ x ∈ ms ∨ x = m := by
          split
          · constructor
            · exact .inl
            · rintro (h | rfl) <;> assumption
          · simp
        rw [a2]
        refine Iff.trans (or_congr hmem Iff.rfl) ?_
        constructor
        · rintro ((hx | hx) | ⟨r', g1, g2⟩)
          · exact .inl hx
          · exact .inr ⟨r, by simp, n, hn, by rw [hm, hx]⟩
          · exact .inr ⟨r', by simp [g1], g2⟩
        · rintro (hx | ⟨r', g1, k, g2, g3⟩)
          · exact .inl (.inl hx)
          · rcases List.mem_cons.1 g1 with g1 | g1
            · rw [huniq k (g1 ▸ g2), hm] at g3
              exact .inl (.inr (Option.some.inj g3).symm)
            · exact .inr ⟨r', g1, k, g2, g3⟩

theorem processArchives_calls {q : List Call} {w0 : Writer} {und0 : List SymbolRef} (hR : Round l N q w0 und0)
    (h : State env l N members log w) (hq : q <+: log) {orderU : Nat → List SymbolRef → List SymbolRef}
    {orderM : Nat → List Bytes → List Bytes} (hu : ∀ i l, (orderU i l).Perm l) (ho : ∀ i l, (orderM i l).Perm l)
    (ps : List Path) (k : Nat) (hps : ∀ p ∈ ps, p ∈ l.archives)
    {und und' : List SymbolRef} (hund : ∀ r ∈ und, r ∈ und0 ∧ ∀ n, NameAt w0 r n → NotInLibs env l n)
    (hr : foldM' (searchArchive env orderU orderM) (w, und) (ps.zipIdx k) = .ok (w', und')) :
    ∃ new xs, State env l N (members ++ xs) (log ++ new) w' ∧ und'.Sublist und ∧
      (∀ r ∈ und, r ∈ und' ↔ ∀ n, NameAt w0 r n → ¬ InArchive env ps n) ∧
      (∀ r ∈ und, r ∉ und' → ∃ n, NameAt w0 r n ∧ Provides env xs n) ∧ (und' = und → w' = w) := by
  induction ps generalizing k members log w und with
  | nil =>
    simp only [List.zipIdx_nil, foldM'] at hr
    cases hr
    refine ⟨[], [], by simpa using h, List.Sublist.refl _, ?_, fun r h1 h2 => absurd h1 h2, fun _ => rfl⟩
    intro r hr
    simp [hr, InArchive]
  | cons p ps ih =>
    rw [List.zipIdx_cons, foldM'_cons, bind_ok] at hr
    obtain ⟨⟨w1, u1⟩, h1, h2⟩ := hr
    simp only [searchArchive, bind_ok, orErr_ok] at h1
    obtain ⟨data, hd, ar, ha, ⟨found, ms⟩, hf, w2, hw2, h1⟩ := h1
    cases h1
    have hmem : ∀ r, r ∈ orderU k und ↔ r ∈ und := fun r => (hu k und).mem_iff
    obtain ⟨a1, a2⟩ := searchArEntries_ok hR h hq (orderU k und) (fun r hr => (hund r ((hmem r).1 hr)).1) hf
    obtain ⟨new, xs, c1, c2⟩ := linkMembers_calls h (hps p (by simp)) hd ha hq (orderM k ms) (by
      intro m hm
      rcases (a2 m).1 ((ho k ms).mem_iff.1 hm) with hc | ⟨r, hr, n, hn, hm'⟩
      · cases hc
      · obtain ⟨g1, g2⟩ := hund r ((hmem r).1 hr)
        exact ⟨n, hm', hR.need r g1 n hn, g2 n hn⟩) hw2
    obtain ⟨new', xs', b1, b3, b4, b5, b6⟩ := ih c1 (hq.trans (List.prefix_append _ _)) (k + 1) (fun p hp => hps p (by simp [hp]))
      (fun r hr => hund r (List.mem_filter.1 hr).1) h2
    have harch : ∀ n, InArchive env (p :: ps) n ↔ (ar.memberOfSymbol n).isSome ∨ InArchive env ps n := by
      intro n
      constructor
      · rintro ⟨p', hp', d', e', h1, h2, h3⟩
        rcases List.mem_cons.1 hp' with rfl | hp'
        · rw [hd] at h1; cases h1
          rw [ha] at h2; cases h2
          exact .inl h3
        · exact .inr ⟨p', hp', d', e', h1, h2, h3⟩
      · rintro (h3 | ⟨p', hp', h3⟩)
        · exact ⟨p, by simp, data, ar, hd, ha, h3⟩
        · exact ⟨p', by simp [hp'], h3⟩
    refine ⟨new ++ new', xs ++ xs', ?_, ?_, ?_, ?_, ?_⟩
    · rw [← List.append_assoc, ← List.append_assoc]; exact b1
    · exact b3.trans (List.filter_sublist)
    · intro r hr
      by_cases hfr : r ∈ found
      · have h3 : r ∉ und' := fun hc => by
          have := (List.mem_filter.1 (b3.subset hc)).2
          simp [hfr] at this
        rcases (a1 r).1 hfr with hc | ⟨_, n, hn, hs⟩
        · cases hc
        · exact ⟨fun hc => absurd hc h3, fun hc => absurd ((harch n).2 (.inl hs)) (hc n hn)⟩
      · have hru : r ∈ und.filter (fun r => r ∉ found) := List.mem_filter.2 ⟨hr, by simpa using hfr⟩
        rw [b4 r hru]
        constructor
        · intro hall n hn hc
          rcases (harch n).1 hc with hc | hc
          · exact hfr ((a1 r).2 (.inr ⟨(hmem r).2 hr, n, hn, hc⟩))
          · exact hall n hn hc
        · exact fun hall n hn hc => hall n hn ((harch n).2 (.inr hc))
    · intro r hr hnr
      by_cases hfr : r ∈ found
      · rcases (a1 r).1 hfr with hc | ⟨hr', n, hn, hs⟩
        · cases hc
        · obtain ⟨m, hm⟩ := Option.isSome_iff_exists.1 hs
          obtain ⟨x, hx, start, g1, g2, g3⟩ := c2 m ((ho k ms).mem_iff.2 ((a2 m).2 (.inr ⟨r, hr', n, hn, hm⟩)))
          exact ⟨n, hn, x, List.mem_append_left _ hx, p, m, start, data, ar, g1, hd, ha, hm, g2, g3⟩
      · have hru : r ∈ und.filter (fun r => r ∉ found) := List.mem_filter.2 ⟨hr, by simpa using hfr⟩
        obtain ⟨n, hn, x, hx, hrest⟩ := b5 r hru hnr
        exact ⟨n, hn, x, List.mem_append_right _ hx, hrest⟩
    · intro e
      subst e
      have hfe : und'.filter (fun r => r ∉ found) = und' := (b3.eq_of_length_le (List.length_filter_le _ _)).symm
      have hnil : ∀ r, r ∉ found := by
        intro r hr
        rcases (a1 r).1 hr with hc | ⟨hc, _⟩
        · cases hc
        · have h3 := (hmem r).1 hc
          rw [← hfe] at h3
          have := (List.mem_filter.1 h3).2
          simp [hr] at this
      have hms : ms = [] := by
        cases hm : ms with
        | nil => rfl
        | cons m rest =>
          exfalso
          rcases (a2 m).1 (by rw [hm]; simp) with hc | ⟨r, hr, n, hn, hm'⟩
          · cases hc
          · exact hnil r ((a1 r).2 (.inr ⟨hr, n, hn, by rw [hm']; rfl⟩))
      rw [hms, List.Perm.eq_nil (ho k [])] at hw2
      cases hw2
      exact b6 hfe.symm

end
end Linker
end Dld
