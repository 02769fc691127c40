import Verif.Lemmas.Unresolved
import Verif.Lemmas.Values
/-! # Links of well-formed files -/
namespace Dld
open Writer Spec StringTable

variable {opts : Options} {ops : List Op} {sched : Sched} {w w' : Writer} {file : Bytes} {secs : List Section}

/-! ### Symbols that are undefined at the end were undefined before -/
namespace Writer

theorem boundSymbols_shndx {y : StringTable} {a b : Name} {t t' : SymbolTable} {s s' : Section}
    (h : boundSymbols y a b t s = .ok (t', s')) : t'.view (·.sym.st_shndx) = t.view (·.sym.st_shndx) := by
  simp only [boundSymbols] at h
  have tail : ∀ s1 : Section, (match y.get b with
      | some e => do
        let r := SymbolRef.named (u32 e.offset)
        let _ ← unwrap (t.get r)
        let t := t.modify r fun x => { x with sym := { x.sym with st_value := s1.sizeOnDisk } }
        let s ← if s1.chunks.length = 0 then .error .panic
          else s1.modifyChunk (s1.chunks.length - 1) (·.addSymbol r)
        .ok (t, s)
      | none => .ok (t, s1)) = (.ok (t', s') : M (SymbolTable × Section)) → t'.view (·.sym.st_shndx) = t.view (·.sym.st_shndx) := by
    intro s1 h
    cases hb : y.get b with
    | none => rw [hb] at h; cases h; rfl
    | some e =>
      rw [hb] at h
      simp only [bind_ok] at h
      obtain ⟨_, _, h⟩ := h
      by_cases hz : s1.chunks.length = 0
      · simp only [if_pos hz] at h; cases h
      · simp only [if_neg hz] at h
        rw [bind_ok] at h
        obtain ⟨_, _, h⟩ := h
        cases h
        exact SymbolTable.view_modify fun s => rfl
  cases ha : y.get a with
  | none => rw [ha] at h; exact tail _ h
  | some e =>
    rw [ha] at h
    rw [bind_ok] at h
    obtain ⟨s1, _, h⟩ := h
    exact tail _ h

theorem special_shndx (h : w.handleSpecialSymbols = .ok w') {r : SymbolRef} {s' : Symbol} (hs : w'.symtab.get r = some s') :
    ∃ s g, w.symtab.get r = some s ∧ w.sec P.gotPlt = .ok g ∧ (s'.sym.st_shndx = s.sym.st_shndx ∨ s'.sym.st_shndx = u16 g.index) := by
  simp only [handleSpecialSymbols, bind_ok, Prod.exists] at h
  obtain ⟨g, hg, a, _, b, _, t, secs, h1, c, _, h2⟩ := h
  cases h2
  have hv := mapAccumM_state (G := fun t : SymbolTable => t.view (·.sym.st_shndx)) (fun s a s' b h => by
      simp only [specialStep] at h
      split at h
      · cases h; rfl
      · split at h
        · exact boundSymbols_shndx h
        · split at h
          · exact boundSymbols_shndx h
          · cases h; rfl) h1
  obtain ⟨s1, hs1, e1⟩ := SymbolTable.view_get_some hv hs
  cases hG : w.symstr.get b!"_GLOBAL_OFFSET_TABLE_" with
  | none =>
    rw [hG] at hs1
    exact ⟨s1, g, hs1, hg, .inl e1⟩
  | some e =>
    rw [hG] at hs1
    simp only [] at hs1
    rw [SymbolTable.get_modify] at hs1
    split at hs1
    · obtain ⟨s0, h0, e0⟩ := Option.map_eq_some_iff.1 hs1
      refine ⟨s0, g, h0, hg, .inr ?_⟩
      rw [e1, ← e0]
    · exact ⟨s1, g, hs1, hg, .inl e1⟩

theorem placeSym_foldl_shndx (r : SymbolRef) (l : List (Nat × Nat)) (s : Symbol) (hl : ∀ n ∈ l, n.2 ≠ 0)
    (h : (l.foldl (fun s n => placeSym r n.1 n.2 s) s).sym.st_shndx = 0) : s.sym.st_shndx = 0 := by
  induction l generalizing s with
  | nil => exact h
  | cons n l ih => exact absurd (ih _ (fun m hm => hl m (by simp [hm])) h) (hl n (by simp))

theorem mem_notesIn {r : SymbolRef} {ix : Nat} {cs : List Chunk} {n : Nat × Nat} : ∀ {base : Nat}, n ∈ notesIn r ix base cs → n.2 = ix := by
  induction cs with
  | nil => intro base h; cases h
  | cons c cs ih =>
    intro base h
    rcases List.mem_append.1 h with h | h
    · obtain ⟨_, _, rfl⟩ := List.mem_map.1 h; rfl
    · exact ih h

/-- the positions of the sections -/
theorem Stages.special_index (st : Stages sched w) (hv : sched.Valid) (hh : Hist opts ops w) {i : Nat} {u : Section}
    (hu : st.special.sections[i]? = some u) : u.index = i ∧ ∃ s, st.final.sections[i]? = some s := by
  obtain ⟨s, hs, _⟩ := getElem?_of_map st.posts.2.2.2.1 hu
  obtain ⟨s0, a, p, q, u', v, T⟩ := st.trip hv hh.secFacts hh.untouched hs
  have := T.special
  rw [hu] at this
  cases this
  exact ⟨(congrArg (·.2.1) T.named.1).trans ((congrArg (·.2.1) T.patch.1).trans (T.core.2.1.trans rfl)), s, hs⟩

/-- a symbol that is undefined at the end was undefined before -/
theorem Stages.final_undefined (st : Stages sched w) (hv : sched.Valid) (hh : Hist opts ops w) (hc : st.final.sections.length ≤ 65536)
    {r : SymbolRef} {s' : Symbol} (hs : st.final.symtab.get r = some s') (h0 : s'.sym.st_shndx = 0) :
    ∃ s, w.symtab.get r = some s ∧ s.sym.st_shndx = 0 ∧ s.sym.st_info = s'.sym.st_info ∧ s.dynamic = s'.dynamic := by
  obtain ⟨s1, _, hs1, _, _, _, _, _, _, _, _, hd, _, hi⟩ := st.final_slots hv hh hs
  have hw : ∃ s, w.symtab.get r = some s ∧ s1.sym = s.sym ∧ s1.dynamic = s.dynamic := by
    obtain ⟨s, h1, h2⟩ := SymbolTable.view_get_some (scan_view (F := fun s : Symbol => (s.sym, s.dynamic)) (fun _ _ _ _ => ⟨rfl, rfl⟩) st.hscan) hs1
    exact ⟨s, h1, congrArg (·.1) h2, congrArg (·.2) h2⟩
  obtain ⟨s, hsw, e1, e2⟩ := hw
  refine ⟨s, hsw, ?_, by rw [hi, e1], by rw [hd, e2]⟩
  -- before the special symbols
  have hlt : ∀ (i : Nat) (u : Section), st.special.sections[i]? = some u → 0 < i → u16 u.index ≠ 0 := by
    intro i u hu hi
    obtain ⟨hx, z, hz⟩ := st.special_index hv hh hu
    have := (List.getElem?_eq_some_iff.1 hz).1
    rw [hx, u16, Nat.mod_eq_of_lt (by omega)]
    omega
  have hsp : ∃ x, st.special.symtab.get r = some x ∧ x.sym.st_shndx = 0 := by
    obtain ⟨g, pl, y, d, rest, _, _, hy, hd, h1, _⟩ := handleRelocations_ok st.hreloc
    rw [st.final_tables.1, h1, patchAll_get] at hs
    obtain ⟨x, hx, rfl⟩ := Option.map_eq_some_iff.1 hs
    refine ⟨x, hx, placeSym_foldl_shndx _ _ _ ?_ h0⟩
    intro n hn
    obtain ⟨u, hu, hn⟩ := List.mem_flatMap.1 hn
    rw [mem_notesIn hn]
    obtain ⟨i, hi⟩ := List.getElem?_of_mem (List.mem_filter.1 hu).1
    rw [List.getElem?_drop] at hi
    exact hlt (1 + i) u hi (by omega)
  obtain ⟨x, hx, hx0⟩ := hsp
  obtain ⟨z, g, hz, hg, hzx⟩ := special_shndx st.hspecial hx
  obtain ⟨z', hz', e⟩ := SymbolTable.view_get_some st.patched_sym hz
  rw [hsw] at hz'
  cases hz'
  rcases hzx with hzx | hzx
  · rw [← e, ← hzx]; exact hx0
  · exfalso
    obtain ⟨i, hi⟩ := List.getElem?_of_mem (sec_ok hg).1
    obtain ⟨u, hu, ep⟩ := getElem?_of_map (st.posts.2.2.1.trans st.posts.2.2.2.1.symm) hi
    have hix : g.index = u.index := congrArg (·.2.1) ep
    have hptr : g.ptr = u.ptr := congrArg (·.1) ep
    have h0i : 0 < i := by
      refine Nat.pos_of_ne_zero fun h => ?_
      obtain ⟨s, hs, _⟩ := getElem?_of_map st.posts.2.2.2.1 hu
      obtain ⟨s0, a, p, q, u', v, T⟩ := st.trip hv hh.secFacts hh.untouched hs
      have := T.special
      rw [hu] at this
      cases this
      obtain ⟨j, hj, _, hz⟩ := T.src
      have hj0 := hz.2 h
      obtain ⟨null, rest, e, hn⟩ := hh.secFacts.head
      rw [hj0, e] at hj
      simp at hj
      subst hj
      have := T.ptr_u
      rw [← hptr, (sec_ok hg).2, hn] at this
      exact absurd this (by decide)
    exact hlt i u hu h0i (by rw [← hix, ← hzx]; exact hx0)

end Writer

/-! ### The calls of a link of well-formed files -/

variable {env : Env} {l : Linker} {N : List Call → Name → Prop} {loaded : List Loaded} {log : List Call}

theorem mem_opsOf {op : Op} (h : op ∈ opsOf log) : ∃ a c b, log = a ++ c :: b ∧ c.op = op := by
  obtain ⟨c, hc, rfl⟩ := List.mem_map.1 h
  obtain ⟨a, b, e⟩ := List.append_of_mem hc
  exact ⟨a, c, b, e, rfl⟩

namespace Calls

theorem input (h : Calls env l N loaded log) {x : Loaded} (hx : x ∈ loaded) : IsInput env l x.elf := by
  obtain ⟨ms, rfl, hm⟩ := h.objects
  rcases List.mem_append.1 hx with hx | hx
  · obtain ⟨⟨p, i⟩, hp, hx⟩ := List.mem_filterMap.1 hx
    have hp := List.mem_zipIdx' hp
    simp only [Option.bind_eq_some_iff] at hx
    obtain ⟨d, hd, e, he, hx⟩ := hx
    split at hx
    · next ho =>
      cases hx
      exact .object (by rw [hp.2]; exact List.getElem_mem _) hd he ho
    · cases hx
  · cases hm x hx with
    | mk hp hd ha hn hm he ho hs hq hu hl => exact .member hp hd ha hm he ho

theorem push (h : Calls env l N loaded log) {n : Name} {sh : SectionHeader} {d : Option Bytes} {r : SectionRef} (hp : Op.push n sh d r ∈ opsOf log) :
    ∃ x ∈ loaded, ∃ i : Nat, x.elf.sectionHeaders[i]? = some sh ∧ sh.sh_type ∉ auxiliaryTypes ∧ x.elf.secName sh.sh_name = some n ∧ SectionBytes x.data sh d := by
  obtain ⟨a, c, b, e, hc⟩ := mem_opsOf hp
  cases h.just a c b e with
  | «section» hx hi ht hn hd => cases hc; exact ⟨_, hx, _, hi, ht, hn, hd⟩
  | symbol hx hj hn hs => cases hc
  | reloc hx hk h0 hs hr hy => cases hc
  | dynsym hp hd he hj hn hq hm => cases hc
  | needed hf => cases hc

theorem copies (h : Calls env l N loaded log) {n : Name} {sh : SectionHeader} {d : Option Bytes} {r : SectionRef} (hp : Op.push n sh d r ∈ opsOf log) :
    ∃ x ∈ loaded, x.elf.Copies sh n ∧ SectionBytes x.data sh d := by
  obtain ⟨x, hx, i, h1, h2, h3, h4⟩ := h.push hp
  exact ⟨x, hx, ⟨List.mem_of_getElem? h1, h2, h3⟩, h4⟩

theorem sym (h : Calls env l N loaded log) {s : Sym} {sec : Option SectionRef} {n : Name} {path : Path} {r : SymbolRef}
    (hp : Op.sym s sec n path r ∈ opsOf log) : ∃ x ∈ loaded, s ∈ x.elf.syms ∧ x.elf.symName s.st_name = some n ∧ path = x.path := by
  obtain ⟨a, c, b, e, hc⟩ := mem_opsOf hp
  cases h.just a c b e with
  | «section» hx hi ht hn hd => cases hc
  | symbol hx hj hn hs => cases hc; exact ⟨_, hx, List.mem_of_getElem? hj, hn, rfl⟩
  | reloc hx hk h0 hs hr hy => cases hc
  | dynsym hp hd he hj hn hq hm => cases hc
  | needed hf => cases hc

theorem dynsym (h : Calls env l N loaded log) {s : Sym} {n : Name} {path : Path} {r : SymbolRef}
    (hp : Op.dynsym s n path r ∈ opsOf log) : LibraryHas env l path s n ∧ ∃ q, q <+: log ∧ N q n := by
  obtain ⟨a, c, b, e, hc⟩ := mem_opsOf hp
  cases h.just a c b e with
  | «section» hx hi ht hn hd => cases hc
  | symbol hx hj hn hs => cases hc
  | reloc hx hk h0 hs hr hy => cases hc
  | dynsym hp hd he hj hn hq hm => cases hc; exact ⟨⟨hp, _, _, hd, he, List.mem_of_getElem? hj, hn⟩, _, hq.trans ⟨_, e.symm⟩, hm⟩
  | needed hf => cases hc

theorem sectionAt (h : Calls env l N loaded log) {a : List Call} (ha : a <+: log) {src : Source} {i : Nat} {r : SectionRef}
    (hs : SectionAt a src i r) : ∃ n sh d, Op.push n sh d r ∈ opsOf log := by
  obtain ⟨n, sh, d, hm⟩ := hs
  exact ⟨n, sh, d, List.mem_map.2 ⟨_, ha.subset hm, rfl⟩⟩

theorem refs (h : Calls env l N loaded log) : RefsOk (opsOf log) := by
  constructor
  · intro rel y r path hop
    obtain ⟨a, c, b, e, hc⟩ := mem_opsOf hop
    cases h.just a c b e with
    | «section» hx hi ht hn hd => cases hc
    | symbol hx hj hn hs => cases hc
    | reloc hx hk h0 hs hr hy => cases hc; exact h.sectionAt ⟨_, e.symm⟩ hr
    | dynsym hp hd he hj hn hq hm => cases hc
    | needed hf => cases hc
  · intro s r n path y hop
    obtain ⟨a, c, b, e, hc⟩ := mem_opsOf hop
    cases h.just a c b e with
    | «section» hx hi ht hn hd => cases hc
    | symbol hx hj hn hs => cases hc; exact h.sectionAt ⟨_, e.symm⟩ ((hs r).1 rfl)
    | reloc hx hk h0 hs hr hy => cases hc
    | dynsym hp hd he hj hn hq hm => cases hc
    | needed hf => cases hc

theorem clean (h : Calls env l N loaded log) (hc : CleanFiles env l) : CleanInputs (opsOf log) := by
  have e8 : SHT_NOBITS = 8 := rfl
  refine ⟨?_, ?_, ?_, ?_, ?_⟩
  · intro n sh d r hp
    obtain ⟨x, hx, h1, _⟩ := h.copies hp
    exact (hc.names _ _ _ (h.input hx) h1).2.1
  · intro sh d r hp
    obtain ⟨x, hx, h1, h2⟩ := h.copies hp
    have h0 := hc.unnamed _ _ (h.input hx) h1
    refine ⟨h0, ?_⟩
    unfold SectionBytes at h2
    split at h2
    · rw [h2]; rfl
    · rw [h2.2, h0]; simp
  · intro n sh d r hn hp
    obtain ⟨x, hx, h1, h2⟩ := h.copies hp
    rw [e8]
    unfold SectionBytes at h2
    split at h2
    · next h => simp [h, h2]
    · next h => simp [h, h2.2]
  · intro n sh b r hp
    obtain ⟨x, hx, h1, h2⟩ := h.copies hp
    unfold SectionBytes at h2
    split at h2
    · cases h2
    · have := Option.some.inj h2.2
      rw [this, List.length_take, List.length_drop]
      have := h2.1
      omega
  · intro n sh d r sh' d' r' hp hp'
    obtain ⟨x, hx, h1, _⟩ := h.copies hp
    obtain ⟨x', hx', h1', _⟩ := h.copies hp'
    exact hc.nobits _ _ _ _ _ (h.input hx) h1 (h.input hx') h1'

theorem good (h : Calls env l N loaded log) (hc : CleanFiles env l) : GoodInputs (opsOf log) := by
  refine ⟨?_, ?_, h.clean hc, h.refs⟩
  · intro n sh d r hp
    obtain ⟨x, hx, h1, _⟩ := h.copies hp
    exact (hc.names _ _ _ (h.input hx) h1).2.2
  · intro n sh d r hp
    obtain ⟨x, hx, h1, _⟩ := h.copies hp
    intro e
    exact h1.2.1 (by rw [e]; decide)

theorem namesClean (h : Calls env l N loaded log) (hc : CleanFiles env l) : NamesClean (opsOf log) := by
  intro n sh d r hp
  obtain ⟨x, hx, h1, _⟩ := h.copies hp
  exact (hc.names _ _ _ (h.input hx) h1).1

theorem symsClean (h : Calls env l (NeededIn env l) loaded log) (hc : CleanFiles env l) : SymsClean (opsOf log) := by
  refine ⟨?_, ?_, ?_⟩
  · intro s sec n path r hop
    obtain ⟨x, hx, h1, h2, _⟩ := h.sym hop
    exact (hc.symbols _ _ _ (h.input hx) h1 h2).1
  · intro s n path r hop
    obtain ⟨h1, _⟩ := h.dynsym hop
    exact (hc.dynsyms _ _ _ h1).1
  · rintro s n path r hop rfl
    obtain ⟨_, q, ⟨t, rfl⟩, hu⟩ := h.dynsym hop
    obtain ⟨s', sec, ⟨⟨p, r', hm⟩, _⟩, h0, hb⟩ := hu.1.wanted
    obtain ⟨x, hx, h1, h2, _⟩ := h.sym (by rw [opsOf_append]; exact List.mem_append_left _ hm)
    have := (hc.symbols _ _ _ (h.input hx) h1 h2).2 rfl h0
    omega

theorem namedDyns (h : Calls env l N loaded log) (hc : CleanFiles env l) : NamedDyns (opsOf log) := by
  intro s n path r hop
  obtain ⟨h1, _⟩ := h.dynsym hop
  exact (hc.dynsyms _ _ _ h1).2

end Calls

/-- All numbers of the output are within the widths of the fields that hold them: the string tables are smaller than 4 GiB, there are fewer than
65536 sections and segments, and so on. -/
structure LinkFits (w w' : Writer) (file : Bytes) (secs : List Section) : Prop where
  names : NamesFit w
  numbers : NumbersFit w' file secs
  symstr : w.symstr.totalLen < 2 ^ 32
  dynstr : w.dynstr.totalLen < 2 ^ 32
  syms : ∀ e ∈ w'.symtab.symbols, e.2.sym.Fits
  dynsyms : ∀ e ∈ w'.dynsym.symbols, e.2.sym.Fits
  dynRels : ∀ r ∈ w'.dynRels, r.Fits
  pltRels : ∀ r ∈ w'.pltRels, r.Fits

/-- A complete link of well-formed files: the calls `log` made on the writer, and what the writer makes of them. -/
structure LinkRun (env : Env) (l : Linker) (sched : LinkSched) (loaded : List Loaded) (log : List Call) (w w' : Writer) (file : Bytes)
    (secs : List Section) : Prop where
  calls : Calls env l (NeededIn env l) loaded log
  good : GoodLink l.options (opsOf log) sched.toSched w w' file secs
  resolved : w'.undefinedSymbols sched.symIter = []

namespace Linker

/-- the numbers of this link fit -/
def Fits (env : Env) (l : Linker) (sched : LinkSched) (fuel : Nat) : Prop :=
  ∀ w w' file secs, gathered env l sched fuel = some (.ok w) → w.computeSections sched.toSched = .ok w' →
    w'.writeToDisk sched.toSched = .ok (file, secs) → LinkFits w w' file secs

/-- every successful link of well-formed files is a `LinkRun`, if the numbers fit -/
theorem link_run {sched : LinkSched} (hv : sched.Valid) (hc : CleanFiles env l) {fuel : Nat} (hf : Fits env l sched fuel)
    (h : link env l sched fuel = some (.ok file)) : ∃ log loaded w w' secs, LinkRun env l sched loaded log w w' file secs := by
  obtain ⟨log, loaded, w, w', secs, hg, h1, h2, h3⟩ := link_ok hv h
  have hf := hf w w' file secs hg h2.compute h2.write
  have h4 := calls_spec hv h1 h2.hist hf.symstr
  exact ⟨log, loaded, w, w', secs, h4, ⟨⟨h2, h4.good hc, h4.namesClean hc, hf.names, hf.numbers⟩, hf.symstr, hf.dynstr, hf.syms, hf.dynsyms,
    hf.dynRels, hf.pltRels, h4.symsClean hc, h4.namedDyns hc⟩, h3⟩

end Linker
end Dld
