import Verif.Spec.MoreLibs
import Verif.Props.CompleteLib
import Verif.Props.Interface
import Verif.Lemmas.ArrayBounds
/-! # More shared libraries: C156 -/
namespace Dld
open Writer Spec StringTable

section
variable {env : Env} {l l' : Linker}

theorem MoreLibraries.archives (h : MoreLibraries l l') : l'.archives = l.archives := by rw [h.rest]
theorem MoreLibraries.objects (h : MoreLibraries l l') : l'.objects = l.objects := by rw [h.rest]
theorem MoreLibraries.mem (h : MoreLibraries l l') {p : Path} (hp : p ∈ l.options.sharedLibs.map (·.1)) : p ∈ l'.options.sharedLibs.map (·.1) := by
  obtain ⟨extra, he⟩ := h.libs
  exact he.mem_iff.2 (List.mem_append_left _ hp)

theorem MoreLibraries.at (h : MoreLibraries l l') {p : Path} {d : Bytes} {e : ElfFile} (hi : InputAt env l p d e) : InputAt env l' p d e := by
  cases hi with
  | object hp hd he ho => exact .object (by rw [h.objects]; exact hp) hd he ho
  | member hp hd ha hn hm he ho => exact .member (by rw [h.archives]; exact hp) hd ha hn hm he ho

theorem MoreLibraries.input (h : MoreLibraries l l') {e : ElfFile} (hi : IsInput env l e) : IsInput env l' e := by
  cases hi with
  | object hp hd he ho => exact .object (by rw [h.objects]; exact hp) hd he ho
  | member hp hd ha hm he ho => exact .member (by rw [h.archives]; exact hp) hd ha hm he ho

theorem MoreLibraries.loaded (h : MoreLibraries l l') : objectsOf env l' = objectsOf env l := by
  unfold objectsOf; rw [h.objects]

theorem MoreLibraries.clean (h : MoreLibraries l l') (hc : CleanFiles env l') : CleanFiles env l := by
  refine ⟨fun e sh n he => hc.names e sh n (h.input he), fun e sh he => hc.first e sh (h.input he), fun e sh he => hc.unnamed e sh (h.input he),
    fun e sh e' sh' n he hs he' => hc.nobits e sh e' sh' n (h.input he) hs (h.input he'), fun e s n he => hc.symbols e s n (h.input he), ?_⟩
  intro p s n hl
  exact hc.dynsyms p s n ⟨h.mem hl.1, hl.2⟩

theorem MoreLibraries.sound (h : MoreLibraries l l') (hc : SoundFiles env l') : SoundFiles env l := by
  refine ⟨by have := hc.loader; rw [h.rest] at this; exact this, fun p d e sh hi => hc.inside p d e sh (h.at hi), fun p d e sh hi => hc.unnamed p d e sh (h.at hi),
    fun p d e s n hi => hc.nameless p d e s n (h.at hi), fun p d e k pos j rel hi => hc.symbols p d e k pos j rel (h.at hi), ?_, ?_⟩
  · exact fun p hp => hc.libraries p (h.mem hp)
  · rw [← h.archives]; exact hc.members

theorem MoreLibraries.relocs (h : MoreLibraries l l') (hc : SoundRelocs env l') : SoundRelocs env l := by
  refine ⟨fun p d e k pos j rel hi => hc.type p d e k pos j rel (h.at hi), fun p d e k pos j rel sh hi => hc.home p d e k pos j rel sh (h.at hi),
    fun p d e k pos j rel s n hi hr ht hs hn => ?_, fun p d e hi => hc.apart p d e (h.at hi),
    fun p d e k pos j rel sh n hi hr hs hn p' d' e' sh' hi' => hc.loaded p d e k pos j rel sh n (h.at hi) hr hs hn p' d' e' sh' (h.at hi')⟩
  obtain ⟨h1, h2⟩ := hc.tls p d e k pos j rel s n (h.at hi) hr ht hs hn
  exact ⟨h1, fun p d e s hi => h2 p d e s (h.at hi)⟩

theorem MoreLibraries.names (h : MoreLibraries l l') (hn : NamesSmall env l') : NamesSmall env l := by
  intro ns hnd hall
  refine hn ns hnd fun n hm => (hall n hm).imp_right ?_
  rintro ⟨p, d, e, s, hi, hs⟩
  exact ⟨p, d, e, s, h.at hi, hs⟩

theorem MoreLibraries.flags (h : MoreLibraries l l') {F : List Nat} (hF : FewFlags env l' F) : FewFlags env l F :=
  ⟨fun p d e sh n hi => hF.flags p d e sh n (h.at hi), hF.few⟩

theorem MoreLibraries.small (h : MoreLibraries l l') {V K : Nat} (hS : SmallProgram env l' V K) : SmallProgram env l V K := by
  have hb : baseCost l'.options = baseCost l.options := by rw [h.rest]; rfl
  obtain ⟨extra, he⟩ := h.libs
  have hs := (he.map (libraryCost env)).sum_nat
  rw [List.map_append, List.sum_append] at hs
  have h1 := hS.values
  have h2 := hS.addends
  have h3 := hS.definitions
  have h4 := hS.small
  rw [h.loaded] at h1 h2 h3 h4
  refine ⟨h1, h2, h3, ?_⟩
  rw [hb, hs] at h4
  refine Nat.lt_of_le_of_lt (Nat.mul_le_mul_left 4 (Nat.add_le_add_left (Nat.mul_le_mul_left (K + 5) ?_) V)) h4
  omega

end

/-- the options other than the hash style and the dynamic linker do not matter for the first calls -/
theorem Hist.libs {opts opts' : Options} (ho : Writer.new opts' = Writer.new opts) {ops : List Op} {w : Writer} (h : Hist opts ops w) : Hist opts' ops w := by
  induction h with
  | init h => exact .init (ho.trans h)
  | step _ hs ih => exact .step ih hs

namespace Linker
variable {env : Env} {l l' : Linker} {sched sched' : LinkSched} {fuel : Nat} {F : List Nat} {V K : Nat} {file : Bytes}

/-- what was done for the objects does not depend on the libraries -/
theorem State.libs (hm : MoreLibraries l l') {log : List Call} {w : Writer} (h : State env l (fun _ _ => False) [] log w) :
    State env l' (fun _ _ => False) [] log w := by
  have hnew : Writer.new l'.options = Writer.new l.options := by rw [hm.rest]; rfl
  have hno := h.no_lib
  refine ⟨⟨h.inv.hist.libs hnew, ?_⟩, (fun _ h => nomatch h), by rw [hm.loaded]; exact h.sections, by rw [hm.loaded]; exact h.others, h.needed, h.start, h.once⟩
  intro a c b e
  have hj := h.inv.just a c b e
  have hlib : c.item.isLib = false := by
    cases hc : c.item.isLib with
    | false => rfl
    | true =>
      have : (c.source, c.item) ∈ libCalls log := List.mem_map.2 ⟨c, List.mem_filter.2 ⟨by rw [e]; simp, hc⟩, rfl⟩
      rw [hno] at this
      cases this
  rw [hm.loaded]
  cases hj with
  | «section» hx hi ht hn hd => exact .section hx hi ht hn hd
  | symbol hx hj hn hs hb => exact .symbol hx hj hn hs hb
  | reloc hx hk h0 hs hr hy => exact .reloc hx hk h0 hs hr hy
  | dynsym => cases hlib
  | needed => cases hlib

/-- the calls for libraries change only the entries of the names of the libraries -/
theorem libs_get {opts : Options} {log new : List Call} {w0 w : Writer} (h0 : Hist opts (opsOf log) w0) (h : Hist opts (opsOf (log ++ new)) w)
    (hl : ∀ c ∈ new, (∃ s n p r, c.op = .dynsym s n p r) ∨ ∃ f, c.op = .needed f) :
    w.symstr = w0.symstr ∧ ∀ k, (∀ c ∈ new, ∀ s n p r, c.op = .dynsym s n p r → ∀ e, w0.symstr.get n = some e → u32 e.offset ≠ k) →
      w.symtab.get (.named k) = w0.symtab.get (.named k) := by
  generalize ho : opsOf (log ++ new) = ops at h
  induction h generalizing new with
  | @init w hw =>
    have : log ++ new = [] := List.map_eq_nil_iff.1 ho
    obtain ⟨rfl, rfl⟩ := List.append_eq_nil_iff.1 this
    cases h0.unique (.init hw)
    exact ⟨rfl, fun _ _ => rfl⟩
  | @step ops op w1 w h hs ih =>
    by_cases hn : new = []
    · subst hn
      rw [List.append_nil] at ho
      have hw : Hist opts (opsOf log) w := by rw [ho]; exact .step h hs
      cases h0.unique hw
      exact ⟨rfl, fun _ _ => rfl⟩
    · obtain ⟨new', c, rfl⟩ : ∃ new' c, new = new' ++ [c] := ⟨_, _, (List.dropLast_concat_getLast hn).symm⟩
      rw [← List.append_assoc, opsOf_append] at ho
      have ho' : opsOf (log ++ new') ++ [c.op] = ops ++ [op] := ho
      rw [List.append_singleton_inj] at ho'
      obtain ⟨e1, e2⟩ := ho'
      obtain ⟨i1, i2⟩ := ih (fun c hc => hl c (by simp [hc])) e1
      rcases hl c (by simp) with ⟨s, n, p, r, hop⟩ | ⟨f, hop⟩
      · rw [← e2, hop] at hs
        cases hs with
        | dynsym hd =>
          refine ⟨(Linker.addDynSymbol_symstr hd).trans i1, fun k hk => ?_⟩
          rw [← i2 k fun c hc => hk c (by simp [hc])]
          have hk := hk c (by simp) s n p r hop
          rw [← i1] at hk
          simp only [Writer.addDynSymbol] at hd
          split at hd
          · cases hd
          · split at hd
            · cases hd; rfl
            · next e he =>
              split at hd
              · cases hd
              · cases hd
                show SymbolTable.get (SymbolTable.modify w1.symtab (.named (u32 e.offset)) _) (.named k) = _
                rw [SymbolTable.get_modify, if_neg]
                intro h
                exact hk e he (SymbolRef.named.inj h)
      · rw [← e2, hop] at hs
        cases hs
        refine ⟨i1, fun k hk => i2 k fun c hc => hk c (by simp [hc])⟩

/-- with readable libraries the search in the libraries does not fail -/
theorem libs_panic (ha : l.archives = []) (hR : ReadableLibraries env l) (hv : sched.Valid) : ∀ (fuel round : Nat) (und : List SymbolRef) (w : Writer) (f : Fail),
    resolveLoop env l sched fuel round und w = some (.error f) → f = .panic
  | 0, _, _, _, _, hr => by simp [resolveLoop] at hr
  | fuel + 1, round, und, w, f, hr => by
    have hs : Safe (fun f => f = .panic) (fun _ => True) (resolveRound env l sched round und w) := by
      unfold resolveRound
      refine Safe.bind (Q := fun _ => True) ?_ fun st _ _ => ?_
      · unfold findInLibs
        refine Safe.foldM' (I := fun _ => True) _ ?_ _ trivial
        rintro ⟨p, i⟩ hm ⟨w1, und1⟩ _
        have hp : p ∈ l.options.sharedLibs.map (·.1) := List.mem_of_getElem? (List.mem_zipIdx_iff_getElem?.1 hm)
        obtain ⟨d, e, hd, he, hn⟩ := hR p hp
        unfold searchLib
        refine Safe.bind (Q := fun d' => d' = d) (Safe.orErr (fun h => by rw [hd] at h; cases h) fun d' h => by rw [hd] at h; cases h; rfl) fun d' _ hd' => ?_
        subst hd'
        refine Safe.bind (Q := fun e' => e' = e) (Safe.unwrap rfl fun e' h => by rw [he] at h; cases h; rfl) fun e' _ he' => ?_
        subst he'
        refine Safe.bind (Q := fun _ => True) ?_ fun st _ hst => trivial
        refine Safe.foldM' (I := fun _ => True) _ ?_ _ trivial
        intro r _ st _
        unfold searchLibEntry
        refine Safe.bind (Q := fun _ => True) (Safe.of_panics (symbolName_panics _ _) rfl fun _ _ => trivial) fun o _ _ => ?_
        cases o with
        | none => trivial
        | some name =>
          refine Safe.bind (Q := fun _ => True) ?_ fun st _ hst => trivial
          refine Safe.foldM' (I := fun _ => True) _ (fun s hs st _ => ?_) _ trivial
          unfold matchDynsym
          refine Safe.bind (Q := fun _ => True) (Safe.orErr (fun h => by have := hn s hs; rw [h] at this; cases this) fun _ _ => trivial) fun inner _ _ => ?_
          split
          · refine Safe.bind (Q := fun _ => True) ?_ fun x _ hx => ?_
            · cases hadd : st.1.addDynSymbol s inner p with
              | ok x => trivial
              | error f =>
                show f = .panic
                simp only [Writer.addDynSymbol] at hadd
                split at hadd
                · next old hold =>
                  exfalso
                  simp only [SymbolTable.addSymbol] at hold
                  split at hold
                  · cases hold
                  · split at hold
                    · split at hold
                      · next hr =>
                        unfold SymbolTable.resolve at hr
                        split at hr
                        · next hc => simp [SHN_UNDEF] at hc
                        · split at hr
                          · cases hr
                          · split at hr <;> cases hr
                      · cases hold
                    · cases hold
                · split at hadd
                  · cases hadd
                  · split at hadd
                    · cases hadd; rfl
                    · cases hadd
            · exact Safe.bind (Q := fun _ => True) (Safe.unwrap rfl fun _ _ => trivial) fun f _ _ => trivial
          · trivial
      · have hp : sched.archives l.archives = [] := by
          have := hv.archives l.archives
          rw [ha] at this ⊢
          exact this.eq_nil
        unfold processArchives
        rw [hp]
        trivial
    unfold resolveLoop at hr
    cases hx : resolveRound env l sched round und w with
    | error f' =>
      rw [hx] at hr hs
      cases hr
      exact hs
    | ok x =>
      rw [hx] at hr hs
      simp only [] at hr
      split at hr
      · cases hr
      · exact libs_panic ha hR hv fuel _ _ _ f hr

/-- the calls after the objects were loaded are for libraries -/
theorem State.lib_ops {N : List Call → Name → Prop} {log new : List Call} {w : Writer} (h : State env l N [] (log ++ new) w)
    (hl : ∀ c ∈ new, c.item.isLib = true) : ∀ c ∈ new, (∃ s n p r, c.op = .dynsym s n p r) ∨ ∃ f, c.op = .needed f := by
  intro c hc
  have hi := hl c hc
  obtain ⟨a, b, e⟩ := List.append_of_mem (List.mem_append_right log hc)
  cases h.inv.just a c b e with
  | «section» => cases hi
  | symbol => cases hi
  | reloc => cases hi
  | dynsym => exact .inl ⟨_, _, _, _, rfl⟩
  | needed => exact .inr ⟨_, rfl⟩

/-- a name that no library has keeps its entry -/
theorem State.keeps (hn : NamesSmall env l) (hread : ∀ p ∈ l.objects, ∃ d e, env.read p = some d ∧ env.parseElf d = some e)
    {N : List Call → Name → Prop} {log new : List Call} {w0 w : Writer} (h0 : Hist l.options (opsOf log) w0) (h : State env l N [] (log ++ new) w)
    (hl : ∀ c ∈ new, c.item.isLib = true) {k : Nat} {n : Name} (hk : w0.symstr.name k = some n) (hno : ∀ p s, ¬ LibraryHas env l p s n) :
    w.symstr = w0.symstr ∧ w.symtab.get (.named k) = w0.symtab.get (.named k) := by
  have hC := h.calls hread
  have hfit := hC.symstr_small h.inv.hist hn
  obtain ⟨h1, h2⟩ := libs_get h0 h.inv.hist (h.lib_ops hl)
  refine ⟨h1, h2 k fun c hc s m p r hop e he hke => ?_⟩
  obtain ⟨ns, nd, T⟩ := h0.tableFacts
  obtain ⟨hm, ho⟩ := Holds.get_some T.symstr he
  obtain ⟨hns, hkk⟩ := T.symstr.name_some hk
  rw [h1] at hfit
  rw [ho, u32_nameOff T.symstr hfit hm] at hke
  have hmn : m = n := by
    have := Holds_name T.symstr hm
    rw [hke, hk] at this
    exact (Option.some.inj this).symm
  subst hmn
  refine hno p s (hC.dynsym (r := r) ?_).1
  rw [opsOf_append]
  exact List.mem_append_right _ (List.mem_map.2 ⟨c, hc, hop⟩)

/-- **C156.** If a link of objects and libraries succeeds, then it also succeeds with more libraries, and with the libraries in another order. -/
theorem C156_more (hc : CleanFiles env l') (hf : SoundFiles env l') (hr : SoundRelocs env l') (hn : NamesSmall env l') (hF : FewFlags env l' F)
    (hv : sched.Valid) (hv' : sched'.Valid) (ha : l.archives = []) (S : SmallProgram env l' V K) (hR : ReadableLibraries env l')
    (hm : MoreLibraries l l') (h : link env l sched fuel = some (.ok file)) :
    ∃ rounds file', ∀ fuel', rounds ≤ fuel' → link env l' sched' fuel' = some (.ok file') := by
  have ha' : l'.archives = [] := by rw [hm.archives]; exact ha
  have ht : TruthfulIndexes env l' := by intro p hp; rw [ha'] at hp; cases hp
  obtain ⟨rounds, res, hres⟩ := C60_terminates ht hv'
  have h' := hres rounds (Nat.le_refl _)
  cases res with
  | ok file' => exact ⟨rounds, file', hres⟩
  | error f =>
    exfalso
    have hT' := program_tables (fuel := rounds) hc hf hr hn hF hv' ha' S
    have hT := program_tables (fuel := fuel) (hm.clean hc) (hm.sound hf) (hm.relocs hr) (hm.names hn) (hm.flags hF) hv ha (hm.small S)
    have hpanic := program_no_panic (fuel := rounds) hc hf hr hn hF hv' ha' S
    obtain ⟨_, _, w, w1, secs, hg, _, hrun, hund⟩ := link_ok hv h
    have hg0 := hg
    unfold gathered at hg0
    split at hg0
    · cases hg0
    next wn h0 =>
    split at hg0
    · cases hg0
    next w0 h1 =>
    obtain ⟨log, a1, a2⟩ := loadAll_calls (N := fun _ _ => False) h0 h1
    have a1' := a1.libs hm
    have a2' : ∀ p ∈ l'.objects, ∃ d e, env.read p = some d ∧ env.parseElf d = some e := by rw [hm.objects]; exact a2
    have hhist0 := a1.inv.hist
    have hhist0' := a1'.inv.hist
    obtain ⟨new, b1, _, b3⟩ := resolveLoop_entries hv ha (hm.names hn) a2 (a1.mono (N' := Unmet env l sched.symIter) (fun _ _ h => h.elim))
      (by rw [a1.no_lib]; exact List.nodup_nil) hg0
    have hnew : Writer.new l'.options = .ok wn := by rw [← h0, hm.rest]; rfl
    have hload : loadAll env l' wn = .ok w0 := by rw [← h1]; unfold loadAll; rw [hm.objects]
    have hgath : gathered env l' sched' rounds = resolveLoop env l' sched' rounds 0 (w0.undefinedSymbols sched'.symIter) w0 := by
      unfold gathered; simp only [hnew, hload]
    rcases link_gathered h' with ⟨e, hg', he⟩ | ⟨w', hg', hfin⟩
    · cases he
      rw [hgath] at hg'
      cases libs_panic ha' hR hv' _ _ _ _ _ hg'
      exact hpanic h'
    · obtain ⟨log'', loaded, _, _, hnot⟩ := gathered_ok hv' hg'
      have hg1 := hg'
      rw [hgath] at hg1
      obtain ⟨new', c1, _, c3⟩ := resolveLoop_entries hv' ha' hn a2' (a1'.mono (N' := Unmet env l' sched'.symIter) (fun _ _ h => h.elim))
        (by rw [a1'.no_lib]; exact List.nodup_nil) hg1
      rcases finish_error hfin with rfl | ⟨w2, names, hcomp, hne, hnames, rfl⟩
      · exact hpanic h'
      obtain ⟨r, hr2⟩ := List.exists_mem_of_ne_nil _ hne
      obtain ⟨k, s2, rfl, hs2, hu2⟩ := (mem_undefinedSymbols hv'.toSched.symIter).1 hr2
      obtain ⟨f1, f2, f3⟩ := hT' w' w2 hg' hcomp
      obtain ⟨st', rfl⟩ := computeSections_stages hcomp
      have hz : s2.sym.st_shndx = 0 := by
        have e0 : SHN_UNDEF = 0 := rfl
        simp only [isUnresolved, e0, Bool.and_eq_true, beq_iff_eq] at hu2
        exact hu2.1.1
      obtain ⟨s1, d1, d2, d3, d4⟩ := st'.final_undefined hv'.toSched c1.inv.hist f3 hs2 hz
      have hu1 : isUnresolved s1 = true := by
        unfold isUnresolved Symbol.isGlobal Symbol.isWeak at hu2 ⊢
        rw [d2, d3, d4, ← hz]; exact hu2
      obtain ⟨ns', nd', T'⟩ := c1.inv.hist.tableFacts
      obtain ⟨n, hns', rfl, _⟩ := T'.named k s1 d1
      have hname' : w'.symstr.name (u32 (nameOff ns' n)) = some n := by
        rw [u32_nameOff T'.symstr f2 hns']; exact Holds_name T'.symstr hns'
      have hnl := (hnot _ ((mem_undefinedSymbols hv'.toSched.symIter).2 ⟨_, s1, rfl, d1, hu1⟩) n ⟨_, rfl, hname'⟩).1
      have hno' : ∀ p s, ¬ LibraryHas env l' p s n := by
        rintro p s ⟨hp, d, e, hd, he, hs, hn'⟩
        exact hnl ⟨p, hp, d, e, hd, he, s, hs, hn'⟩
      have hno : ∀ p s, ¬ LibraryHas env l p s n := fun p s hL => hno' p s ⟨hm.mem hL.1, hL.2⟩
      have hstr' := (libs_get hhist0' c1.inv.hist (c1.lib_ops c3)).1
      have hstr := (libs_get hhist0 b1.inv.hist (b1.lib_ops b3)).1
      have hname0 := hname'
      rw [hstr'] at hname0
      have e' := (State.keeps hn a2' hhist0' c1 c3 hname0 hno').2
      have e := (State.keeps (hm.names hn) a2 hhist0 b1 b3 hname0 hno).2
      rw [d1] at e'
      rw [← e'] at e
      -- the name is not one of the linker's
      have hin : n ∈ names := by
        refine (undefinedNames_mem hnames).2 ⟨_, hr2, ?_⟩
        have : st'.final.symstr = w'.symstr := by rw [st'.final_post.2.2.2.2.1, st'.sorted_rest.2.1]
        simp only [symbolName, this, hname']; rfl
      have hgot : n ≠ b!"_GLOBAL_OFFSET_TABLE_" := by
        rintro rfl
        exact listed_got hv' hT' h' hin
      -- it is as undefined without the libraries
      obtain ⟨st, hst⟩ := computeSections_stages hrun.compute
      obtain ⟨k1, k2, k3⟩ := hT w w1 hg hrun.compute
      obtain ⟨ns, nd, T⟩ := b1.inv.hist.tableFacts
      obtain ⟨hns, hk⟩ := T.symstr.name_some (by rw [hstr]; exact hname0)
      have hk : u32 (nameOff ns' n) = u32 (nameOff ns n) := by rw [hk, u32_nameOff T.symstr k2 hns]
      have hbC := b1.calls a2
      have hcC := c1.calls a2'
      have hgood := hbC.good (hm.clean hc)
      have hgood' := hcC.good hc
      have hlog : ∀ op ∈ opsOf (log ++ new), (∀ s n p r, op ≠ .dynsym s n p r) → (∀ f, op ≠ .needed f) → op ∈ opsOf (log ++ new') := by
        intro op hop hd hf
        rw [opsOf_append] at hop ⊢
        rcases List.mem_append.1 hop with hop | hop
        · exact List.mem_append_left _ hop
        · obtain ⟨c, hc, rfl⟩ := List.mem_map.1 hop
          rcases b1.lib_ops b3 c hc with ⟨s, n, p, r, e⟩ | ⟨f, e⟩
          · exact absurd e (hd _ _ _ _)
          · exact absurd e (hf _)
      have hmk : ¬ MarkedIn (opsOf (log ++ new)) (.named (u32 (nameOff ns' n))) n := by
        intro hmk
        obtain ⟨en, hen, heo⟩ := Holds.get_mem T'.symstr hns'
        refine st'.marked_defined hv'.toSched c1.inv.hist hgood' f1 f3 ⟨en, hen, by rw [heo]⟩ ?_ hs2 hz
        rcases hmk with ⟨m, sh, d, sr, hmn, hp, hin'⟩ | ⟨m, S, E, sh, d, sr, hmn, hSE, hp⟩
        · obtain ⟨s, x, path, hop, habs⟩ := mem_notesAt.1 hin'
          exact .inl ⟨m, sh, d, sr, hmn, hlog _ hp (by simp) (by simp), mem_notesAt.2 ⟨s, x, path, hlog _ hop (by simp) (by simp), habs⟩⟩
        · exact .inr ⟨m, S, E, sh, d, sr, hmn, hSE, hlog _ hp (by simp) (by simp)⟩
      rw [hk] at hmk e
      obtain ⟨s3, hs3, hu3⟩ := st.unmarked_undefined hv.toSched b1.inv.hist hgood k2 T hns hgot hmk e hu1
      rw [← hk] at hs3
      have : SymbolRef.named (u32 (nameOff ns' n)) ∈ w1.undefinedSymbols sched.symIter := by
        rw [← hst]
        exact (mem_undefinedSymbols hv.toSched.symIter).2 ⟨_, s3, rfl, hs3, hu3⟩
      rw [hund] at this
      cases this

/-! ### Another library in front of the one that is needed -/

def morePath : Path := ⟨b!"lib/libm.so", some b!"libm.so"⟩
def moreEnv : Env := tableEnv (trioFiles ++ [(morePath, b!"another")]) (trioElfs ++ [(b!"another", libElf)]) []
def moreLinker : Linker := { trioLinker with options := { Options.default with sharedLibs := [(morePath, false), (libPath, false)] } }

theorem more_libs {p : Path} (hp : p ∈ moreLinker.options.sharedLibs.map (·.1)) : p = morePath ∨ p = libPath := by
  simpa [moreLinker] using hp

theorem more_sound : SoundFiles moreEnv moreLinker := by
  refine SoundFiles.of_table (by decide +kernel) (by decide) ?_ ?_
  · intro p hp
    rcases more_libs hp with rfl | rfl
    · refine ⟨by decide, fun d hd => ?_⟩
      have hd : some b!"another" = some d := by rw [← hd]; decide
      cases hd
      decide
    · refine ⟨by decide, fun d hd => ?_⟩
      have hd : some b!"library" = some d := by rw [← hd]; decide
      cases hd
      decide
  · intro p hp; cases hp

/-- the program of two objects and a library, with another library in front: all requirements are met -/
example (sched : LinkSched) (hv : sched.Valid) : ∃ rounds file, ∀ fuel, rounds ≤ fuel → link moreEnv moreLinker sched fuel = some (.ok file) := by
  have hok : ((link moreEnv trioLinker LinkSched.id 5).any fun r => match r with | .ok _ => true | .error _ => false) = true := by decide +kernel
  cases h : link moreEnv trioLinker LinkSched.id 5 with
  | none => rw [h] at hok; cases hok
  | some r =>
    rw [h] at hok
    cases r with
    | error f => cases hok
    | ok file =>
      refine C156_more (l := trioLinker) (F := [0, 6]) (CleanFiles.of_table (by decide +kernel)) more_sound (SoundRelocs.of_table (by decide +kernel) (by decide +kernel))
        (NamesSmall.of_table (by decide +kernel)) (FewFlags.of_table (by decide +kernel) (by decide)) LinkSched.id_valid hv rfl (V := 100) (K := 1)
        ⟨by decide +kernel, by decide +kernel, ⟨by decide, trio_small.definitions.2⟩, by decide +kernel⟩ ?_ ⟨⟨[morePath], .swap _ _ _⟩, rfl⟩ h
      intro p hp
      rcases more_libs hp with rfl | rfl
      · exact ⟨b!"another", libElf, by decide, rfl, by decide⟩
      · exact ⟨b!"library", libElf, by decide, rfl, by decide⟩

end Linker
end Dld
