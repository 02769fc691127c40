import Verif.Spec.Complete
import Verif.Props.Sound
import Verif.Props.Errors
import Verif.Lemmas.Files
import Verif.Lemmas.ArrayBounds
/-! # Complete programs link -/
namespace Dld
open Writer Spec StringTable

namespace Writer
variable {sched : Sched} {w w' : Writer} {opts : Options} {ops : List Op}

/-- `_GLOBAL_OFFSET_TABLE_` is put into `.got.plt` -/
theorem special_got (h : w.handleSpecialSymbols = .ok w') {e : Entry} (he : w.symstr.get b!"_GLOBAL_OFFSET_TABLE_" = some e) {s' : Symbol}
    (hs : w'.symtab.get (.named (u32 e.offset)) = some s') : ∃ g, w.sec P.gotPlt = .ok g ∧ s'.sym.st_shndx = u16 g.index := by
  simp only [handleSpecialSymbols, bind_ok, Prod.exists] at h
  obtain ⟨g, hg, a, _, b, _, t, secs, h1, c, _, h2⟩ := h
  cases h2
  have hv := mapAccumM_state (G := fun t : SymbolTable => t.view (·.sym.st_shndx)) (fun s a s' b h => by
      simp only [specialStep] at h
      split at h
      · cases h; rfl
      · split at h
        · exact boundSymbols_shndx h
        · split at h
          · exact boundSymbols_shndx h
          · cases h; rfl) h1
  obtain ⟨s1, hs1, e1⟩ := SymbolTable.view_get_some hv hs
  rw [he] at hs1
  simp only [] at hs1
  rw [SymbolTable.get_modify, if_pos rfl] at hs1
  obtain ⟨s0, h0, e0⟩ := Option.map_eq_some_iff.1 hs1
  exact ⟨g, hg, by rw [e1, ← e0]⟩

/-- it is defined at the end -/
theorem Stages.got_defined (st : Stages sched w) (hv : sched.Valid) (hh : Hist opts ops w) (hc : st.final.sections.length ≤ 65536)
    {e : Entry} (he : w.symstr.get b!"_GLOBAL_OFFSET_TABLE_" = some e) {s' : Symbol} (hs : st.final.symtab.get (.named (u32 e.offset)) = some s') :
    s'.sym.st_shndx ≠ 0 := by
  intro h0
  have hlt : ∀ (i : Nat) (u : Section), st.special.sections[i]? = some u → 0 < i → u16 u.index ≠ 0 := by
    intro i u hu hi
    obtain ⟨hx, z, hz⟩ := st.special_index hv hh hu
    have := (List.getElem?_eq_some_iff.1 hz).1
    rw [hx, u16, Nat.mod_eq_of_lt (by omega)]
    omega
  have hsp : ∃ x, st.special.symtab.get (.named (u32 e.offset)) = some x ∧ x.sym.st_shndx = 0 := by
    obtain ⟨g, pl, y, d, rest, _, _, hy, hd, h1, _⟩ := handleRelocations_ok st.hreloc
    rw [st.final_tables.1, h1, patchAll_get] at hs
    obtain ⟨x, hx, rfl⟩ := Option.map_eq_some_iff.1 hs
    refine ⟨x, hx, placeSym_foldl_shndx _ _ _ ?_ h0⟩
    intro n hn
    obtain ⟨u, hu, hn⟩ := List.mem_flatMap.1 hn
    rw [mem_notesIn hn]
    obtain ⟨i, hi⟩ := List.getElem?_of_mem (List.mem_filter.1 hu).1
    rw [List.getElem?_drop] at hi
    exact hlt (1 + i) u hi (by omega)
  obtain ⟨x, hx, hx0⟩ := hsp
  obtain ⟨g, hg, hzx⟩ := special_got st.hspecial (e := e) (by rw [st.patched_symstr]; exact he) hx
  obtain ⟨i, hi⟩ := List.getElem?_of_mem (sec_ok hg).1
  obtain ⟨u, hu, ep⟩ := getElem?_of_map (st.posts.2.2.1.trans st.posts.2.2.2.1.symm) hi
  have hix : g.index = u.index := congrArg (·.2.1) ep
  have hptr : g.ptr = u.ptr := congrArg (·.1) ep
  have h0i : 0 < i := by
    refine Nat.pos_of_ne_zero fun h => ?_
    obtain ⟨s, hs, _⟩ := getElem?_of_map st.posts.2.2.2.1 hu
    obtain ⟨s0, a, p, q, u', v, T⟩ := st.trip hv hh.secFacts hh.untouched hs
    have := T.special
    rw [hu] at this
    cases this
    obtain ⟨j, hj, _, hz⟩ := T.src
    have hj0 := hz.2 h
    obtain ⟨null, rest, e, hn⟩ := hh.secFacts.head
    rw [hj0, e] at hj
    simp at hj
    subst hj
    have := T.ptr_u
    rw [← hptr, (sec_ok hg).2, hn] at this
    exact absurd this (by decide)
  exact hlt i u hu h0i (by rw [← hix, ← hzx]; exact hx0)

end Writer

namespace Linker
variable {env : Env} {l : Linker} {sched : LinkSched} {fuel : Nat} {F : List Nat} {V K : Nat}

/-- The calls that the files lead to are of moderate size. -/
def Moderate (env : Env) (l : Linker) (sched : LinkSched) (fuel : Nat) : Prop :=
  ∀ w loaded log, gathered env l sched fuel = some (.ok w) → Calls env l (NeededIn env l) loaded log → Hist l.options (opsOf log) w →
    ∃ V K, Spec.Fits l.options (opsOf log) V K

/-- then the tables are small -/
theorem Moderate.tables (hm : Moderate env l sched fuel) (hc : CleanFiles env l) (hf : SoundFiles env l) (hr : SoundRelocs env l)
    (hn : NamesSmall env l) (hF : FewFlags env l F) (hv : sched.Valid) : TablesFit env l sched fuel := by
  intro w w' hg hcomp
  obtain ⟨log, loaded, h1, h2, _⟩ := gathered_ok hv hg
  have h4 := calls_spec hv h1 h2 (h1.symstr_small h2 hn)
  obtain ⟨V, K, fits⟩ := hm w loaded log hg h4 h2
  have D := h4.digestible h2 hc hf hr hn hF fits
  obtain ⟨a, b, _, _, c⟩ := D.toWellFormed.names h2
  refine ⟨a, b, ?_⟩
  obtain ⟨st, rfl⟩ := computeSections_stages hcomp
  obtain ⟨_, _, hL⟩ := st.laid hv.toSched h2.secFacts h2.untouched D.good.flags
  rw [hL.secs]; omega

/-- what is known about a name that is reported as undefined -/
theorem listed (hv : sched.Valid) (hf : TablesFit env l sched fuel) {p : Path} {names : List Name}
    (h : link env l sched fuel = some (.error (.err p (.undefined names)))) : ∃ log loaded w ns nd, ∃ st : Stages sched.toSched w,
      Calls env l (NeededIn env l) loaded log ∧ Hist l.options (opsOf log) w ∧ TableFacts ns nd (opsOf log) w ∧ NamesFit w ∧ w.symstr.totalLen < 2 ^ 32 ∧
      st.final.sections.length ≤ 65536 ∧
      ∀ n ∈ names, n ∈ ns ∧ ∃ s, st.final.symtab.get (.named (u32 (nameOff ns n))) = some s ∧ s.sym.st_shndx = 0 := by
  rcases link_resolved hv h with ⟨e, hg, he⟩ | ⟨log, loaded, w, hg, h1, h2, h3, hfin⟩
  · cases he
    exact absurd hg (gathered_undefined hv)
  · rcases finish_error hfin with h | ⟨w', names', hcomp, hne, hnames, h⟩
    · cases h
    · cases h
      obtain ⟨f1, f2, f3⟩ := hf w w' hg hcomp
      obtain ⟨st, hst⟩ := computeSections_stages hcomp
      have hstr : w'.symstr = w.symstr := by
        rw [← hst, st.final_post.2.2.2.2.1, st.sorted_rest.2.1]
      obtain ⟨ns, nd, T⟩ := h2.tableFacts
      refine ⟨log, loaded, w, ns, nd, st, calls_spec hv h1 h2 f2, h2, T, f1, f2, by rw [hst]; exact f3, ?_⟩
      intro n hn
      obtain ⟨r, hr, hname⟩ := (undefinedNames_mem hnames).1 hn
      obtain ⟨k, s', rfl, hs', hu⟩ := (mem_undefinedSymbols hv.toSched.symIter).1 hr
      have hname : w.symstr.name k = some n := by
        rw [← hstr]
        simp only [symbolName, bind_ok, unwrap_ok] at hname
        obtain ⟨m, hm, e⟩ := hname
        cases e
        exact hm
      have h0 : s'.sym.st_shndx = 0 := by
        have e0 : SHN_UNDEF = 0 := rfl
        simp only [isUnresolved, e0, Bool.and_eq_true, beq_iff_eq] at hu
        exact hu.1.1
      rw [← hst] at hs' f3
      obtain ⟨s, a1, _⟩ := st.final_undefined hv.toSched h2 f3 hs' h0
      obtain ⟨n', hns, rfl, _⟩ := T.named k s a1
      rw [u32_nameOff T.symstr f2 hns, Holds_name T.symstr hns] at hname
      cases hname
      exact ⟨hns, s', hs', h0⟩

/-- `_GLOBAL_OFFSET_TABLE_` is never reported as undefined -/
theorem listed_got (hv : sched.Valid) (hf : TablesFit env l sched fuel) {p : Path} {names : List Name}
    (h : link env l sched fuel = some (.error (.err p (.undefined names)))) : b!"_GLOBAL_OFFSET_TABLE_" ∉ names := by
  obtain ⟨log, loaded, w, ns, nd, st, _, h2, T, _, _, f3, hall⟩ := listed hv hf h
  intro hn
  obtain ⟨hns, s, hs, h0⟩ := hall _ hn
  obtain ⟨e, he, eo⟩ := Holds.get_mem T.symstr hns
  rw [← eo] at hs
  exact st.got_defined hv.toSched h2 f3 he hs h0

theorem just_section {N : List Call → Name → Prop} {loaded : List Loaded} {a : List Call} {src : Source} {i : Nat} {op : Op}
    (h : Justified env l N loaded a ⟨src, .section i, op⟩) : ∃ m sh d r, op = .push m sh d r := by
  generalize hc : (⟨src, .section i, op⟩ : Call) = c at h
  cases h with
  | «section» => cases hc; exact ⟨_, _, _, _, rfl⟩
  | symbol => cases hc
  | reloc => cases hc
  | dynsym => cases hc
  | needed => cases hc

/-- every section that is copied is handed over -/
theorem has_push {N : List Call → Name → Prop} {loaded : List Loaded} {log : List Call} (h : Calls env l N loaded log) {x : Loaded} (hx : x ∈ loaded) {i : Nat} {sh : SectionHeader} {m : Name}
    (hi : x.elf.sectionHeaders[i]? = some sh) (ht : sh.sh_type ∉ auxiliaryTypes) (hm : x.elf.secName sh.sh_name = some m) :
    ∃ d r, Op.push m sh d r ∈ opsOf log := by
  have hk : (x.source, Item.section i) ∈ sectionCalls log := by
    rw [h.sections]
    refine List.mem_flatMap.2 ⟨x, hx, mem_sectionKeys.2 (Calls.mem_copied.2 ⟨sh, hi, ht⟩)⟩
  obtain ⟨c, hc, e⟩ := List.mem_map.1 hk
  obtain ⟨src, item, op⟩ := c
  cases e
  have hc := (List.mem_filter.1 hc).1
  obtain ⟨a, b, e⟩ := List.append_of_mem hc
  obtain ⟨m', sh', d, r, rfl⟩ : ∃ m' sh' d r, op = .push m' sh' d r := by
    exact just_section (h.just a _ b e)
  obtain ⟨q1, _, q2, _⟩ := h.push_call hx hc
  cases q1.symm.trans hi
  cases q2.symm.trans hm
  exact ⟨d, r, List.mem_map.2 ⟨_, hc, rfl⟩⟩

/-- nor is a name that the sections of the files give a value -/
theorem listed_section (hv : sched.Valid) (hc : CleanFiles env l) (hf : TablesFit env l sched fuel) {p : Path} {names : List Name}
    (h : link env l sched fuel = some (.error (.err p (.undefined names)))) {n : Name} (hd : InSection env l n) : n ∉ names := by
  obtain ⟨log, loaded, w, ns, nd, st, h1, h2, T, f1, f2, f3, hall⟩ := listed hv hf h
  intro hn
  obtain ⟨hns, s', hs', h0⟩ := hall _ hn
  obtain ⟨en, hen, heo⟩ := Holds.get_mem T.symstr hns
  refine st.marked_defined hv.toSched h2 (h1.good hc) f1 f3 ⟨en, hen, by rw [heo]⟩ ?_ hs' h0
  obtain ⟨ms, e, _⟩ := h1.objects
  rcases hd with ⟨x, hx, s, hs, hname, h3, habs, sh, m, hsh, hty, hm, hmn⟩ | ⟨x, hx, i, sh, m, S, E, hi, ht, hm, hmS, hSE⟩
  · have hx : x ∈ loaded := by rw [e]; exact List.mem_append_left _ hx
    obtain ⟨j, hj⟩ := List.getElem?_of_mem hs
    obtain ⟨a, b, n', sec, y, el, hn', hsec, hall'⟩ := h1.symbol_after hx hj
    cases hname.symm.trans hn'
    obtain ⟨r, hr⟩ := hall' s.st_shndx (Calls.mem_copied.2 ⟨sh, hsh, hty⟩)
    have hsr := (hsec r).2 hr
    subst hsr
    have hop : Op.sym s (some r) n x.path y ∈ opsOf log := by rw [el, opsOf_append]; exact List.mem_append_right _ List.mem_cons_self
    have hy := (T.inv.sref _ _ _ _ _ hop).2 h3
    obtain ⟨m', sh', d, hmem⟩ := hr
    have hmem : (⟨x.source, .section s.st_shndx, .push m' sh' d r⟩ : Call) ∈ log := by rw [el]; exact List.mem_append_left _ hmem
    obtain ⟨q1, _, q2, _⟩ := h1.push_call hx hmem
    cases q1.symm.trans hsh
    cases q2.symm.trans hm
    have hp : Op.push m sh d r ∈ opsOf log := by
      obtain ⟨a', b', e'⟩ := List.append_of_mem hmem
      rw [e', opsOf_append]; exact List.mem_append_right _ List.mem_cons_self
    refine .inl ⟨m, sh, d, r, hmn, hp, mem_notesAt.2 ⟨s, n, x.path, ?_, habs⟩⟩
    rw [← hy]; exact hop
  · have hx : x ∈ loaded := by rw [e]; exact List.mem_append_left _ hx
    obtain ⟨d, r, hp⟩ := has_push h1 hx hi ht hm
    exact .inr ⟨m, S, E, sh, d, r, hmS, hSE, hp⟩

/-- a complete program of objects and libraries links, if nothing crashes and the tables are small -/
theorem complete (hc : CleanFiles env l) (hn : NamesSmall env l) (hv : sched.Valid) (ha : l.archives = []) (hR : ReadableFiles env l) (hD : DefinedOnce env l)
    (hN : ∀ n, Needs env l n → n = b!"_GLOBAL_OFFSET_TABLE_" ∨ DefinedGlobally env l n ∨ InSection env l n ∨ InLibrary env l n)
    (hP : ∀ fuel, link env l sched fuel ≠ some (.error .panic)) (hT : ∀ fuel, TablesFit env l sched fuel) :
    ∃ rounds file, ∀ fuel, rounds ≤ fuel → link env l sched fuel = some (.ok file) := by
  have ht : TruthfulIndexes env l := by intro p hp; rw [ha] at hp; cases hp
  obtain ⟨rounds, res, hres⟩ := C60_terminates ht hv
  have h := hres rounds (Nat.le_refl _)
  cases res with
  | ok file => exact ⟨rounds, file, hres⟩
  | error f =>
    exfalso
    cases f with
    | panic => exact hP rounds h
    | err p k =>
      rcases C83_blame hv h with ⟨rfl, names, rfl⟩ | hb
      · obtain ⟨_, hne, loaded, log, h1, h2, _⟩ := C59_listed hv hc (hT rounds) h
        obtain ⟨n, hn'⟩ := List.exists_mem_of_ne_nil _ hne
        obtain ⟨⟨s, hs, h0, hb⟩, hg, hl, _⟩ := h2 n hn'
        rw [loaded_objects h1 ha] at hs hg
        rcases hN n ⟨s, hs, h0, hb⟩ with rfl | ⟨s', hs', h0', hb'⟩ | hd | ⟨p, s', hp, data, e, hd, he, hs', hn⟩
        · exact listed_got hv (hT rounds) h hn'
        · exact h0' (hg s' hs' hb')
        · exact listed_section hv hc (hT rounds) h hd hn'
        · exact hl p hp data e hd he s' hs' hn
      · cases hb with
        | unreadable hp hd =>
          rcases hp with hp | hp | hp
          · obtain ⟨d, e, h1, h2⟩ := hR.objects p hp
            rw [h1] at hd; cases hd
          · obtain ⟨d, e, h1, h2, _⟩ := hR.libraries p hp
            rw [h1] at hd; cases hd
          · rw [ha] at hp; cases hp
        | object hp hd he =>
          obtain ⟨d, e, h1, h2⟩ := hR.objects p hp
          rw [h1] at hd; cases hd
          rw [h2] at he; cases he
        | archive hp => rw [ha] at hp; cases hp
        | member hp => rw [ha] at hp; cases hp
        | sectionName hi hs ht hn =>
          have := hR.sections _ _ _ _ hi hs ht
          rw [hn] at this; cases this
        | symbolName hi hs hn =>
          have := hR.symbols _ _ _ _ hi hs
          rw [hn] at this; cases this
        | dynName hp hd he hs hn =>
          obtain ⟨d, e, h1, h2, h3⟩ := hR.libraries p hp
          rw [h1] at hd; cases hd
          rw [h2] at he; cases he
          have := h3 _ hs
          rw [hn] at this; cases this
        | duplicate hi hb h0 hd hg _ =>
          obtain ⟨p', d', j', s', hi', ho, h0'⟩ := hd hn
          obtain ⟨e1, e2, e3⟩ := hD.names _ _ _ _ _ _ _ _ _ hi hb h0 hi' h0'
          rcases ho with h | h | h | h | h
          · exact h e1
          · exact h e2
          · exact h e3
          · exact h hD.files
          · rw [ha] at h; cases h
        | reloc hi hr' ht hn' =>
          subst ht
          exact hR.relocs _ _ _ _ _ _ _ hi hr' hn'

/-- **C140, the part that holds.** If the files can be read and are well-formed, no name with a global definition has a second definition, and every name
that is needed has a global definition, has a definition in a section, is a bound of an array that some object has, is in a library or is
`_GLOBAL_OFFSET_TABLE_`, then the link ends and succeeds. Missing
from the full claim: weak definitions without a section (`C140_weak_violated`) or beside a global one (`C140_override_violated`); for archives see `C140_linked_partial`. -/
theorem C140_complete_partial (hc : CleanFiles env l) (hf : SoundFiles env l) (hr : SoundRelocs env l) (hn : NamesSmall env l) (hF : FewFlags env l F)
    (hv : sched.Valid) (ha : l.archives = []) (hR : ReadableFiles env l) (hD : DefinedOnce env l)
    (hN : ∀ n, Needs env l n → n = b!"_GLOBAL_OFFSET_TABLE_" ∨ DefinedGlobally env l n ∨ InSection env l n ∨ InLibrary env l n)
    (hm : ∀ fuel, Moderate env l sched fuel) :
    ∃ rounds file, ∀ fuel, rounds ≤ fuel → link env l sched fuel = some (.ok file) := by
  refine complete hc hn hv ha hR hD hN ?_ fun fuel => (hm fuel).tables hc hf hr hn hF hv
  intro fuel h
  obtain ⟨log, loaded, w, hg, h1, h2, h3⟩ := C98_no_crash hc hf hr hn hF hv h
  obtain ⟨V, K, fits⟩ := hm fuel w loaded log hg h1 h2
  exact h3 V K fits

/-- **C140 for object files alone.** All hypotheses are about the contents of the files. -/
theorem C140_objects_partial (hc : CleanFiles env l) (hf : SoundFiles env l) (hr : SoundRelocs env l) (hn : NamesSmall env l) (hF : FewFlags env l F)
    (hv : sched.Valid) (ha : l.archives = []) (hs : l.options.sharedLibs = []) (S : SmallObjects env l V K) (hR : ReadableFiles env l)
    (hD : DefinedOnce env l) (hN : ∀ n, Needs env l n → n = b!"_GLOBAL_OFFSET_TABLE_" ∨ DefinedGlobally env l n ∨ InSection env l n) :
    ∃ rounds file, ∀ fuel, rounds ≤ fuel → link env l sched fuel = some (.ok file) := by
  refine C140_complete_partial hc hf hr hn hF hv ha hR hD (fun n h => (hN n h).imp_right (·.imp_right .inl)) ?_
  intro fuel w loaded log _ h1 h2
  rw [loaded_objects h1 ha] at h1
  exact ⟨V, K, h1.fits h2 hc hn hs S⟩

end Linker

section Table
variable {files : List (Path × Bytes)} {elfs : List (Bytes × ElfFile)} {l : Linker}

/-- the symbols of the objects of a table of files -/
def tableSyms (files : List (Path × Bytes)) (elfs : List (Bytes × ElfFile)) (objs : List Path) : List ((Path × Bytes × Nat) × Sym × Name) :=
  objs.flatMap fun p => ((AMap.get? files p).bind fun d => (AMap.get? elfs d).map fun e =>
    e.syms.zipIdx.filterMap fun x => (e.symName x.1.st_name).bind fun n => if x.1.st_info % 16 = 3 then none else some ((p, d, x.2), x.1, n)).getD []

theorem InputSym.of_table {p : Path} {d : Bytes} {j : Nat} {s : Sym} {n : Name} (ha : l.archives = []) (h : InputSym (tableEnv files elfs []) l p d j s n) :
    ((p, d, j), s, n) ∈ tableSyms files elfs l.objects := by
  obtain ⟨e, h, hj, hn, ht⟩ := h
  cases h with
  | member hp => rw [ha] at hp; cases hp
  | object hp hd he ho =>
    have hd : AMap.get? files p = some d := hd
    have he : AMap.get? elfs d = some e := he
    refine List.mem_flatMap.2 ⟨p, hp, ?_⟩
    rw [hd, Option.bind_some, he, Option.map_some, Option.getD_some]
    exact List.mem_filterMap.2 ⟨(s, j), List.mem_zipIdx_iff_getElem?.2 hj, by rw [hn, Option.bind_some, if_neg ht]⟩

theorem Mentioned.of_table {s : Sym} {n : Name} (h : MentionedIn (objectsOf (tableEnv files elfs []) l) s n) :
    (s, n) ∈ (tableSyms files elfs l.objects).map (·.2) := by
  obtain ⟨x, hx, hs, hn, ht⟩ := h
  obtain ⟨i, hi⟩ := List.getElem?_of_mem hs
  simp only [objectsOf, List.mem_filterMap, Prod.exists] at hx
  obtain ⟨p, k, hp, hx⟩ := hx
  obtain ⟨d, hd, hx⟩ := Option.bind_eq_some_iff.1 hx
  obtain ⟨e, he, hx⟩ := Option.bind_eq_some_iff.1 hx
  split at hx
  · cases hx
    have hd : AMap.get? files p = some d := hd
    have he : AMap.get? elfs d = some e := he
    refine List.mem_map.2 ⟨((p, d, i), s, n), List.mem_flatMap.2 ⟨p, List.mem_of_getElem? (List.mem_zipIdx_iff_getElem?.1 hp), ?_⟩, rfl⟩
    rw [hd, Option.bind_some, he, Option.map_some, Option.getD_some]
    exact List.mem_filterMap.2 ⟨(s, i), List.mem_zipIdx_iff_getElem?.2 hi, by rw [hn, Option.bind_some, if_neg ht]⟩
  · cases hx

/-- a check of what `ReadableFiles` asks of an object file -/
def readableElf (e : ElfFile) : Bool :=
  e.sectionHeaders.all (fun sh => (e.secName sh.sh_name).isSome) && e.syms.all (fun s => (e.symName s.st_name).isSome) &&
  e.relocs.all fun x => !nonAbiTypes.contains (x.2.2.2.r_type % 2 ^ 32)

theorem ReadableFiles.of_table (ha : l.archives = []) (hs : l.options.sharedLibs = []) (ho : (l.objects.all fun p =>
    ((AMap.get? files p).bind (AMap.get? elfs)).isSome) = true) (he : (elfs.all fun x => readableElf x.2) = true) :
    ReadableFiles (tableEnv files elfs []) l := by
  have hall : ∀ d e, (d, e) ∈ elfs → readableElf e = true := fun d e hm => List.all_eq_true.1 he _ hm
  refine ⟨?_, ?_, ?_, ?_, ?_, ?_⟩
  · intro p hp
    have := List.all_eq_true.1 ho p hp
    obtain ⟨e, he⟩ := Option.isSome_iff_exists.1 this
    obtain ⟨d, h1, h2⟩ := Option.bind_eq_some_iff.1 he
    exact ⟨d, e, h1, h2⟩
  · intro p hp; rw [hs] at hp; cases hp
  · intro p hp; rw [ha] at hp; cases hp
  · intro p d e sh hi hsh _
    have := hall d e hi.of_table
    simp only [readableElf, Bool.and_eq_true, List.all_eq_true] at this
    exact this.1.1 sh hsh
  · intro p d e s hi hs
    have := hall d e hi.of_table
    simp only [readableElf, Bool.and_eq_true, List.all_eq_true] at this
    exact this.1.2 s hs
  · intro p d e k pos j rel hi hr
    have := hall d e hi.of_table
    simp only [readableElf, Bool.and_eq_true, List.all_eq_true] at this
    simpa using this.2 _ hr

theorem GlobalOnce.of_table (ha : l.archives = []) (hn : l.objects.Nodup) (h : ∀ x ∈ tableSyms files elfs l.objects, ∀ y ∈ tableSyms files elfs l.objects,
    x.2.2 = y.2.2 → x.2.1.st_info / 16 = 1 → x.2.1.st_shndx ≠ 0 → y.2.1.st_info / 16 = 1 → y.2.1.st_shndx ≠ 0 → y.1 = x.1) :
    GlobalOnce (tableEnv files elfs []) l := by
  refine ⟨hn, ?_⟩
  intro n p d j s p' d' j' s' h1 a1 a2 h2 a3 a4
  have := h _ (h1.of_table ha) _ (h2.of_table ha) rfl a1 a2 a3 a4
  simpa using this

theorem DefinedOnce.of_table (ha : l.archives = []) (hn : l.objects.Nodup) (h : ∀ x ∈ tableSyms files elfs l.objects, ∀ y ∈ tableSyms files elfs l.objects,
    x.2.2 = y.2.2 → x.2.1.st_info / 16 = 1 → x.2.1.st_shndx ≠ 0 → y.2.1.st_shndx ≠ 0 → y.1 = x.1) :
    DefinedOnce (tableEnv files elfs []) l := by
  refine ⟨hn, ?_⟩
  intro n p d j s p' d' j' s' h1 a1 a2 h2 a4
  have := h _ (h1.of_table ha) _ (h2.of_table ha) rfl a1 a2 a4
  simpa using this

end Table

/-- `f` as a symbol: defined or not, global or weak -/
def lonelyElf (shndx bind : Nat) : ElfFile := { twiceElf with
  syms := [{}, { demoSym STT_FUNC shndx 0 4 with st_name := 1, st_info := bind * 16 + 2 }]
  symName := AMap.get? [(0, []), (1, b!"f")] }

def refPath : Path := ⟨b!"ref.o", some b!"ref.o"⟩
def weakPath : Path := ⟨b!"weak.o", some b!"weak.o"⟩
def strongPath : Path := ⟨b!"strong.o", some b!"strong.o"⟩

/-- a file that refers to `f`, one that defines it weakly in the given section and one that defines it globally -/
def lonelyFiles : List (Path × Bytes) := [(refPath, List.replicate 4 0x90), (weakPath, List.replicate 4 0xcc), (strongPath, List.replicate 4 0xc3)]
def lonelyElfs (shndx : Nat) : List (Bytes × ElfFile) :=
  [(List.replicate 4 0x90, lonelyElf 0 1), (List.replicate 4 0xcc, lonelyElf shndx 2), (List.replicate 4 0xc3, lonelyElf 1 1)]
def lonelyEnv (shndx : Nat) : Env := tableEnv lonelyFiles (lonelyElfs shndx) []
def lonelyLinker (objs : List Path) : Linker := { options := Options.default, objects := objs, archives := [] }

namespace Linker
variable {env : Env} {l : Linker} {sched : LinkSched} {fuel : Nat} {F : List Nat} {V K : Nat}

/-- **C140** is violated: a weak definition of an absolute value is lost when a later file refers to the name, and the link fails although the only name that is needed is
defined. -/
theorem C140_weak_violated : ∃ (env : Env) (l : Linker), CleanFiles env l ∧ ReadableFiles env l ∧ GlobalOnce env l ∧
    (∀ n, Needs env l n → DefinedGlobally env l n ∨ DefinedWeakly env l n) ∧
    link env l LinkSched.id 5 = some (.error (.err l.options.output (.undefined [b!"f"]))) := by
  refine ⟨lonelyEnv 0xfff1, lonelyLinker [weakPath, refPath], CleanFiles.of_table (by decide +kernel),
    ReadableFiles.of_table rfl rfl (by decide +kernel) (by decide +kernel), GlobalOnce.of_table rfl (by decide) (by decide +kernel), ?_, by decide +kernel⟩
  rintro n ⟨s, hs, h0, hb⟩
  have := (by decide +kernel : ∀ x ∈ (tableSyms lonelyFiles (lonelyElfs 0xfff1) [weakPath, refPath]).map (·.2),
    x.1.st_shndx = 0 → (x.1.st_info / 16 = 1 ∨ x.1.st_info / 16 = 2) → x.2 = b!"f") _ (Mentioned.of_table hs) h0 hb
  subst this
  exact .inr ⟨_, ⟨⟨.object 0, weakPath, List.replicate 4 0xcc, lonelyElf 0xfff1 2⟩, List.mem_cons_self, .tail _ (.head _), rfl, by decide⟩, by decide, by decide⟩

/-- And a global definition that overrides a weak one is taken for a second definition if an earlier file refers to the name. -/
theorem C140_override_violated : ∃ (env : Env) (l : Linker), CleanFiles env l ∧ ReadableFiles env l ∧ GlobalOnce env l ∧
    (∀ n, Needs env l n → DefinedGlobally env l n) ∧ ∃ p q, link env l LinkSched.id 5 = some (.error (.err p (.alreadyDefined b!"f" q))) := by
  refine ⟨lonelyEnv 1, lonelyLinker [refPath, weakPath, strongPath], CleanFiles.of_table (by decide +kernel),
    ReadableFiles.of_table rfl rfl (by decide +kernel) (by decide +kernel), GlobalOnce.of_table rfl (by decide) (by decide +kernel), ?_, strongPath, refPath,
    by decide +kernel⟩
  rintro n ⟨s, hs, h0, hb⟩
  have := (by decide +kernel : ∀ x ∈ (tableSyms lonelyFiles (lonelyElfs 1) [refPath, weakPath, strongPath]).map (·.2),
    x.1.st_shndx = 0 → (x.1.st_info / 16 = 1 ∨ x.1.st_info / 16 = 2) → x.2 = b!"f") _ (Mentioned.of_table hs) h0 hb
  subst this
  exact ⟨_, ⟨⟨.object 2, strongPath, List.replicate 4 0xc3, lonelyElf 1 1⟩, .tail _ (.tail _ (.head _)), .tail _ (.head _), rfl, by decide⟩, by decide, by decide⟩

theorem pair_small : SmallObjects pairEnv pairLinker 100 1 := by
  refine ⟨by decide +kernel, by decide +kernel, ⟨by decide, ?_⟩, by decide +kernel⟩
  intro n
  have : (objectsOf pairEnv pairLinker).map (fun x => x.elf.definitions n) = [callerElf.definitions n, memberElf.definitions n] := rfl
  rw [this]
  have h1 : callerElf.definitions n = if b!"_start" = n then 1 else 0 := by
    simp only [ElfFile.definitions, callerElf, mainElf, demoSym, STT_FUNC, List.filter, AMap.get?]
    by_cases h : b!"_start" = n <;> simp [h]
  have h2 : memberElf.definitions n = if b!"g" = n then 1 else 0 := by
    simp only [ElfFile.definitions, memberElf, demoSym, STT_FUNC, List.filter, AMap.get?]
    by_cases h : b!"g" = n <;> simp [h]
  rw [h1, h2]
  by_cases h : b!"_start" = n
  · subst h; decide
  · rw [if_neg h]
    by_cases h' : b!"g" = n
    · rw [if_pos h']; decide
    · rw [if_neg h']; decide

/-- the files of `pairEnv` -/
def pairFiles : List (Path × Bytes) := [(mainPath, List.replicate 16 0x90), (calleePath, List.replicate 8 0xc3)]
def pairElfs : List (Bytes × ElfFile) := [(List.replicate 16 0x90, callerElf), (List.replicate 8 0xc3, memberElf)]

/-- the only name that is needed -/
theorem pair_needs {n : Name} (h : Needs pairEnv pairLinker n) : n = b!"g" := by
  obtain ⟨s, hs, h0, hb⟩ := h
  exact (by decide +kernel : ∀ x ∈ (tableSyms pairFiles pairElfs [mainPath, calleePath]).map (·.2),
    x.1.st_shndx = 0 → (x.1.st_info / 16 = 1 ∨ x.1.st_info / 16 = 2) → x.2 = b!"g") _ (Mentioned.of_table (files := pairFiles) (elfs := pairElfs) hs) h0 hb

theorem pair_sound : SoundFiles pairEnv pairLinker := by
  refine SoundFiles.of_table (by decide +kernel) (by decide) ?_ ?_
  · intro p hp; cases hp
  · intro p hp; cases hp

theorem pair_relocs : SoundRelocs pairEnv pairLinker := SoundRelocs.of_table (by decide +kernel) (by decide +kernel)
theorem pair_names : NamesSmall pairEnv pairLinker := NamesSmall.of_table (by decide +kernel)
theorem pair_flags : FewFlags pairEnv pairLinker [0, 6] := FewFlags.of_table (by decide +kernel) (by decide)
theorem pair_readable : ReadableFiles pairEnv pairLinker := ReadableFiles.of_table rfl rfl (by decide +kernel) (by decide +kernel)
theorem pair_once : DefinedOnce pairEnv pairLinker := DefinedOnce.of_table rfl (by decide) (by decide +kernel)

/-- two objects, one of which calls a function of the other: all requirements are met, and the link succeeds -/
example (sched : LinkSched) (hv : sched.Valid) : ∃ rounds file, ∀ fuel, rounds ≤ fuel → link pairEnv pairLinker sched fuel = some (.ok file) := by
  refine C140_objects_partial (CleanFiles.of_table (by decide +kernel)) pair_sound pair_relocs pair_names pair_flags hv rfl rfl pair_small pair_readable pair_once ?_
  intro n hn
  cases pair_needs hn
  exact .inr (.inl ⟨_, ⟨⟨.object 1, calleePath, List.replicate 8 0xc3, memberElf⟩, .tail _ (.head _), .tail _ (.head _), rfl, by decide⟩, by decide, by decide⟩)

end Linker
end Dld
