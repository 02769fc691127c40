import Verif.Lemmas.Fits
import Verif.Lemmas.LinkGood
/-! # The numbers of symbols and relocations fit their fields -/
namespace Dld
open Writer Spec StringTable

variable {opts : Options} {ops : List Op} {sched : Sched} {w w' : Writer} {F : List Nat} {V K : Nat}

/-! ### The symbols of the writer -/

theorem null_fits : SymbolTable.nullSymbol.sym.Fits := by constructor <;> decide

open SymbolTable in
theorem resolve_fits {old new s : Symbol} (h : resolve old new = some s) (h1 : old.sym.Fits) (h2 : new.sym.Fits) : s.sym.Fits := by
  unfold resolve at h
  split at h
  · cases h
  · split at h
    · cases h; exact ⟨h1.name, h2.info, h2.other, h2.shndx, h2.value, h2.size⟩
    · split at h <;> cases h
      · exact ⟨h1.name, h1.info, h1.other, h2.shndx, h1.value, h1.size⟩
      · exact h1

open SymbolTable in
theorem Hist.symFits (h : Hist opts ops w) (hF : FieldsFit ops) {r : SymbolRef} {s : Symbol} (hs : w.symtab.get r = some s) : s.sym.Fits := by
  obtain ⟨ns, nd, T⟩ := h.tableFacts
  have key : ∀ a ∈ symAdds ns ops, a.sym.Fits := by
    intro a ha
    obtain ⟨s, sec, n, path, r, hm, rfl⟩ := mem_symAdds ha
    have := hF.symbols _ _ _ _ _ hm
    exact ⟨u32_lt _, this.info, this.other, this.shndx, this.value, this.size⟩
  have := addAll_forall (P := fun _ s => s.sym.Fits) T.inv.sym (fun a ha _ => key a ha) (fun a ha _ _ => key a ha)
    (fun a ha r old s ho hr => resolve_fits hr ho (key a ha)) (fun r s hr => by
      obtain ⟨_, rfl⟩ := new_get hr
      exact null_fits) r (undyn s) (by rw [get_mapSyms, hs]; rfl)
  exact this

open SymbolTable in
theorem Hist.dynFits (h : Hist opts ops w) (hF : FieldsFit ops) {r : SymbolRef} {s : Symbol} (hs : w.dynsym.get r = some s) : s.sym.Fits := by
  obtain ⟨ns, nd, T⟩ := h.tableFacts
  have key : ∀ a ∈ dynAdds nd ops, a.sym.Fits := by
    intro a ha
    obtain ⟨s, n, path, r, hm, rfl⟩ := mem_dynAdds ha
    have := hF.dynamic _ _ _ _ hm
    exact ⟨u32_lt _, this.info, this.other, (by decide : 0 < 256 ^ 2), (by decide : 0 < 256 ^ 8), this.size⟩
  exact addAll_forall (P := fun _ s => s.sym.Fits) T.inv.dyn (fun a ha _ => key a ha) (fun a ha _ _ => key a ha)
    (fun a ha r old s ho hr => resolve_fits hr ho (key a ha)) (fun r s hr => by
      obtain ⟨_, rfl⟩ := new_get hr
      exact null_fits) r s hs

/-! ### The symbols of the output -/

theorem u16_lt (n : Nat) : u16 n < 256 ^ 2 := Nat.mod_lt _ (by decide)

/-- the facts about the special symbols hold in every link -/
theorem Writer.Mid.facts (st : Mid sched w) (hv : sched.Valid) (h : Hist opts ops w) (hf : FlagsOk ops) (hc : CleanInputs ops)
    (hn : NamesFit w) (hsl : SectionsNameless ops) (hl : w.dynsym.symbols.length < 2 ^ 32) : MidFacts st := by
  obtain ⟨y, hy, h1, h2⟩ := st.toEarly.special hv h hf hc hn hsl hl st.hpatch
  have e : st.special = y := by
    have := st.hspecial
    rw [hy] at this
    exact (Except.ok.inj this).symm
  rw [← e] at h1 h2
  exact ⟨h1, h2⟩

theorem placeSym_foldl_lt (r : SymbolRef) (l : List (Nat × Nat)) (s : Symbol) (hl : ∀ n ∈ l, n.2 < 256 ^ 2) (hs : s.sym.st_shndx < 256 ^ 2) :
    (l.foldl (fun s n => placeSym r n.1 n.2 s) s).sym.st_shndx < 256 ^ 2 := by
  induction l generalizing s with
  | nil => exact hs
  | cons n l ih => exact ih _ (fun m hm => hl m (by simp [hm])) (hl n (by simp))

theorem Writer.Stages.sym_fits (st : Stages sched w) (hv : sched.Valid) (h : Hist opts ops w) (D : WellFormed opts ops w F V K) (hF : FieldsFit ops)
    (hn : NamesFit w) (hl : w.dynsym.symbols.length < 2 ^ 32) (hs : V + (K + 5) * w.span < 2 ^ 64)
    {r : SymbolRef} {s : Symbol} (hx : st.final.symtab.get r = some s) : s.sym.Fits ∧ s.sym.st_value ≤ V + (K + 5) * w.span := by
  obtain ⟨x2, hx2, e2⟩ := SymbolTable.view_get_some st.final_unplace.1 hx
  obtain ⟨x, hx1, e1⟩ := SymbolTable.view_get_some st.dynrel_sym hx2
  have hfit := h.symFits hF hx1
  have e1 : x2.sym = x.sym := e1
  rw [← e1] at hfit
  obtain ⟨g, pl, y, d, rest, _, _, _, _, ht, _⟩ := handleRelocations_ok st.hreloc
  have hval : s.sym.st_value ≤ V + (K + 5) * w.span := by
    obtain ⟨v, ix, hg, hb⟩ := (st.toMid.facts hv h D.good.flags D.good.clean hn D.nameless hl).value hv h D.good.flags D.good.clean D.good.refs hn hl
      D.fits.values (D.fits.mentions r) (relocatable [y.sh.sh_name, d.sh.sh_name]) hx2
    rw [st.final_tables.1, ht, hg] at hx
    cases hx
    exact hb
  have hix : s.sym.st_shndx < 256 ^ 2 := by
    rw [st.final_tables.1, ht, patchAll_get] at hx
    obtain ⟨z, hz, rfl⟩ := Option.map_eq_some_iff.1 hx
    refine placeSym_foldl_lt _ _ _ ?_ ?_
    · intro n hn
      obtain ⟨u, _, hn⟩ := List.mem_flatMap.1 hn
      rw [mem_notesIn hn]
      exact u16_lt _
    · obtain ⟨z1, _, hz1, _, hz2⟩ := special_shndx st.hspecial hz
      rcases hz2 with hz2 | hz2
      · obtain ⟨z0, hz0, e⟩ := SymbolTable.view_get_some st.patched_sym hz1
        have := (h.symFits hF hz0).shndx
        rw [hz2, show z1.sym = z0.sym from e]; exact this
      · rw [hz2]; exact u16_lt _
  refine ⟨⟨?_, ?_, ?_, hix, ?_, ?_⟩, hval⟩
  · rw [show s.sym.st_name = x2.sym.st_name from congrArg (·.sym.st_name) e2]; exact hfit.name
  · rw [show s.sym.st_info = x2.sym.st_info from congrArg (·.sym.st_info) e2]; exact hfit.info
  · rw [show s.sym.st_other = x2.sym.st_other from congrArg (·.sym.st_other) e2]; exact hfit.other
  · rw [show (256 : Nat) ^ 8 = 2 ^ 64 by decide]; omega
  · rw [show s.sym.st_size = x2.sym.st_size from congrArg (·.sym.st_size) e2]; exact hfit.size

/-! ### The dynamic symbols of the output -/

theorem dynRelStep_shndx {ix : List (Nat × Nat)} {st st' : DynState} {k : Nat} (h : dynRelStep ix st k = .ok st') :
    st'.dynsym.view (·.sym.st_shndx) = st.dynsym.view (·.sym.st_shndx) := by
  simp only [dynRelStep, bind_ok] at h
  obtain ⟨sym, hs, h⟩ := h
  cases hd : sym.dynamic with
  | none => rw [hd] at h; cases h; rfl
  | some d =>
    rw [hd] at h
    simp only [bind_ok] at h
    obtain ⟨ix, _, ds, _, h⟩ := h
    cases hp : sym.inGotPlt <;> rw [hp] at h <;> cases h
    all_goals (cases sym.inGot <;> cases ds.isObject <;> first | rfl | exact SymbolTable.view_modify fun s => rfl)

theorem Writer.Early.dynrel_shndx (st : Early sched w) : st.dynrel.dynsym.view (·.sym.st_shndx) = w.dynsym.view (·.sym.st_shndx) := by
  have hd := st.hdynrel
  simp only [genDynRels, bind_ok] at hd
  obtain ⟨d, h1, h2⟩ := hd
  have h3 := foldM'_state (G := fun st : DynState => st.dynsym.view (·.sym.st_shndx)) (fun _ _ _ h => dynRelStep_shndx h) h1
  have h4 : st.dynrel.dynsym = d.dynsym := by rw [← Except.ok.inj h2]; rfl
  have h5 : (st.filled.expandRest sched).dynsym = w.dynsym := st.filled_tables.2.1
  rw [h4, h3, h5]

theorem updateObject_shndx (t : SymbolTable) (a i : Nat) {r : SymbolRef} {x : Symbol} (h : (t.updateObjectSymbols a i).get r = some x) :
    x.sym.st_shndx < 256 ^ 2 ∨ ∃ y, t.get r = some y ∧ x.sym.st_shndx = y.sym.st_shndx := by
  cases r with
  | named k =>
    have e : (t.updateObjectSymbols a i).symbols = t.symbols.map fun e => (e.1, if e.2.isObject then
        { e.2 with sym := { e.2.sym with st_value := e.2.sym.st_value + a, st_shndx := u16 i } } else e.2) := by
      unfold SymbolTable.updateObjectSymbols
      apply List.map_congr_left
      intro e _
      simp only
      split <;> rfl
    have h' : AMap.get? (t.updateObjectSymbols a i).symbols k = some x := h
    rw [e, AMap.get?_map_value t.symbols (fun s : Symbol => if s.isObject then
        { s with sym := { s.sym with st_value := s.sym.st_value + a, st_shndx := u16 i } } else s)] at h'
    obtain ⟨y, hy, rfl⟩ := Option.map_eq_some_iff.1 h'
    by_cases ho : y.isObject
    · rw [if_pos ho]; exact .inl (u16_lt _)
    · rw [if_neg ho]; exact .inr ⟨y, hy, rfl⟩
  | «section» k j => exact .inr ⟨x, h, rfl⟩

theorem Writer.Stages.dyn_fits (st : Stages sched w) (hv : sched.Valid) (h : Hist opts ops w) (D : WellFormed opts ops w F V K) (hF : FieldsFit ops)
    (hds : w.dynstr.totalLen < 2 ^ 32) (hl : w.dynsym.symbols.length < 2 ^ 32) (hs : w.span < 2 ^ 32)
    {r : SymbolRef} {s : Symbol} (hx : st.final.dynsym.get r = some s) : s.sym.Fits := by
  obtain ⟨x2, hx2, e2⟩ := SymbolTable.view_get_some st.final_unplace.2 hx
  obtain ⟨x, hx1, e1⟩ := SymbolTable.view_get_some (st.toEarly.linkRels hv h).dyn hx2
  have hfit := h.dynFits hF hx1
  have e : unplace s = unplace x := e2.trans e1
  have hval : s.sym.st_value ≤ 2 * w.span := by
    obtain ⟨z, hz, hb⟩ := st.toMid.dyn_value hv h D.good.flags D.dyns D.clean hds hl hx1
    rw [← st.final_tables.2.1, hx] at hz
    cases hz
    exact hb
  have hix : s.sym.st_shndx < 256 ^ 2 := by
    have hsp := st.hspecial
    simp only [handleSpecialSymbols, bind_ok, Prod.exists] at hsp
    obtain ⟨_, _, _, _, _, _, t1, secs, h1, cr, hcr, e⟩ := hsp
    have e := Except.ok.inj e
    have hdy : st.special.dynsym = st.dynrel.dynsym.updateObjectSymbols cr.sh.sh_addr cr.index := by
      rw [← e]
      show SymbolTable.updateObjectSymbols _ _ _ = _
      rw [(patchPlt_post st.hpatch).2, st.toEarly.entries_rest]
    rw [st.final_tables.2.1, hdy] at hx
    rcases updateObject_shndx _ _ _ hx with hx | ⟨y, hy, hx⟩
    · exact hx
    · obtain ⟨z, hz, ez⟩ := SymbolTable.view_get_some st.toEarly.dynrel_shndx hy
      rw [hx, show y.sym.st_shndx = z.sym.st_shndx from ez]
      exact (h.dynFits hF hz).shndx
  refine ⟨?_, ?_, ?_, hix, ?_, ?_⟩
  · rw [show s.sym.st_name = x.sym.st_name from congrArg (·.sym.st_name) e]; exact hfit.name
  · rw [show s.sym.st_info = x.sym.st_info from congrArg (·.sym.st_info) e]; exact hfit.info
  · rw [show s.sym.st_other = x.sym.st_other from congrArg (·.sym.st_other) e]; exact hfit.other
  · rw [show (256 : Nat) ^ 8 = 2 ^ 64 by decide]; omega
  · rw [show s.sym.st_size = x.sym.st_size from congrArg (·.sym.st_size) e]; exact hfit.size

/-! ### The relocations for the dynamic linker -/

theorem mem_dynRelsFrom {r : Rela} {ms : List Import} {a : Nat} (h : r ∈ dynRelsFrom a ms) :
    ∃ m ∈ ms, ∃ off ty, r = rela off m.index ty ∧ ty ≤ 7 ∧ (m.got = some off ∨ off ≤ copyEnd a ms) := by
  induction ms generalizing a with
  | nil => cases h
  | cons m ms ih =>
    have hle : a ≤ copyEnd (a + m.copy.getD 0) ms := by
      have := (copies_bounds (a := a + m.copy.getD 0) (ms := ms)).1
      omega
    simp only [dynRelsFrom, List.mem_append] at h
    rcases h with (h | h) | h
    · cases hg : m.got with
      | none => rw [hg] at h; cases h
      | some off =>
        rw [hg] at h
        exact ⟨m, by simp, off, 6, by simpa using h, by omega, .inl hg⟩
    · cases hg : m.copy with
      | none => rw [hg] at h; cases h
      | some n =>
        rw [hg] at h
        exact ⟨m, by simp, a, 5, by simpa using h, by omega, .inr hle⟩
    · obtain ⟨m', hm', off, ty, e1, e2, e3⟩ := ih h
      exact ⟨m', by simp [hm'], off, ty, e1, e2, e3⟩

theorem rebase_fits {g gp c off ix ty B : Nat} (hg : g ≤ B) (hgp : gp ≤ B) (hc : c ≤ B) (ho : off ≤ B) (hB : B < 2 ^ 32) (hi : ix < 2 ^ 31) (ht : ty ≤ 7) :
    (rebaseRela g gp c (rela off ix ty)).Fits := by
  have key : ∀ o, o ≤ 2 * B → Rela.Fits { r_offset := o, r_info := ix * 2 ^ 32 + ty, r_addend := 0 } := by
    intro o ho
    refine ⟨?_, ?_, (by decide : -((256 ^ 8 / 2 : Nat) : Int) ≤ 0), (by decide : (0 : Int) < (256 ^ 8 / 2 : Nat))⟩
    · show o < 256 ^ 8; omega
    · show ix * 2 ^ 32 + ty < 256 ^ 8; omega
  unfold rebaseRela rela
  simp only
  repeat' split
  all_goals exact key _ (by omega)

theorem Writer.Stages.rels_fit (st : Stages sched w) (hv : sched.Valid) (h : Hist opts ops w) (D : WellFormed opts ops w F V K)
    (hds : w.dynstr.totalLen < 2 ^ 32) (hl : w.dynsym.symbols.length < 2 ^ 31) (hs : w.span < 2 ^ 32) :
    (∀ r ∈ st.final.dynRels, r.Fits) ∧ ∀ r ∈ st.final.pltRels, r.Fits := by
  obtain ⟨ns, nd, T⟩ := h.tableFacts
  have L := st.toEarly.linkRels hv h
  obtain ⟨_, _, f3, f4, f5, f6, _⟩ := st.final_tables
  obtain ⟨⟨g, gp, cr, hg, hgp, hcr, e1, e2⟩, _⟩ := computeTables_ok st.htables
  obtain ⟨g1, g2, g3⟩ := st.toEarly.got_le h
  obtain ⟨ks, gs, hI, _⟩ := st.toEarly.scan h
  have hw : 64 * (relocsOf w).length + 0x200000 ≤ w.span := by unfold Writer.span Writer.weight; omega
  have hle : ∀ {p : Nat} {x : Section}, st.relocated.sec p = .ok x → p ≠ P.null → x.sh.sh_addr ≤ w.span := by
    intro p x hx hp
    obtain ⟨hm, e⟩ := sec_ok hx
    have hpost := (handleRelocations_post st.hreloc).1
    obtain ⟨i, hi⟩ := List.getElem?_of_mem hm
    obtain ⟨u, hu, ep⟩ := getElem?_of_map hpost hi
    have h1 : x.sh = u.sh := congrArg (·.2.2.2.2) ep
    have h2 : x.ptr = u.ptr := congrArg (·.1) ep
    rw [h1]
    exact st.toMid.sec_le hv h D.good.flags (by omega) (List.mem_of_getElem? hu) (by rw [← h2, e]; exact hp)
  have hga := hle hg (by decide)
  have hgpa := hle hgp (by decide)
  have hcra := hle hcr (by decide)
  have himp : ∀ m ∈ st.imports, m.index < 2 ^ 31 ∧ (∀ o, m.got = some o → o ≤ w.span) ∧ ∀ o, m.gotPlt = some o → o ≤ w.span := by
    intro m hm
    obtain ⟨n, I⟩ := st.toEarly.import_facts T D.dyns D.clean hm
    obtain ⟨x, hx, _⟩ := I.index
    obtain ⟨y, hy, e1, e2⟩ := I.scan
    have hxl := (List.getElem?_eq_some_iff.1 hx).1
    rw [SymbolTable.sorted_length hv.dynIter] at hxl
    refine ⟨by omega, ?_, ?_⟩
    · intro o ho
      have q1 := hI.inGot _ y hy
      rw [e1, q1] at ho
      obtain ⟨e, he, rfl⟩ := Option.map_eq_some_iff.1 ho
      have := (Packed.bounds hI.packed).2 _ (get?_mem he)
      simp only at this
      have h2 : e.1 ≤ st.scanned.gotLen := by show e.1 ≤ _; omega
      omega
    · intro o ho
      have q2 := (hI.inPlt _ y hy).2
      rw [e2, q2, hI.gotPlt] at ho
      obtain ⟨e, he, eo⟩ := List.mem_map.1 (get?_mem ho)
      have hlt := List.snd_lt_of_mem_zipIdx he
      have hp : st.scanned.plt = ks.zipIdx := hI.plt
      rw [hp, List.length_zipIdx] at g3
      have : (e.2 + 3) * 8 = o := congrArg (·.2) eo
      omega
  have hcop := st.toEarly.copies_le hv T D.dyns D.clean hds
  have hwt : w.weight ≤ w.span := by unfold Writer.span; omega
  refine ⟨?_, ?_⟩
  · intro r hr
    rw [f3, e1, f5, L.dynRels] at hr
    obtain ⟨r0, hr0, rfl⟩ := List.mem_map.1 hr
    obtain ⟨m, hm, off, ty, rfl, ht, ho⟩ := mem_dynRelsFrom hr0
    obtain ⟨i1, i2, _⟩ := himp m hm
    refine rebase_fits hga hgpa hcra ?_ hs i1 ht
    rcases ho with ho | ho
    · exact i2 _ ho
    · omega
  · intro r hr
    rw [f4, e2, f6, L.pltRels] at hr
    obtain ⟨r0, hr0, rfl⟩ := List.mem_map.1 hr
    obtain ⟨e, he, rfl⟩ := List.mem_map.1 hr0
    unfold called at he
    obtain ⟨m, hm, he⟩ := List.mem_filterMap.1 he
    obtain ⟨o, ho, rfl⟩ := Option.map_eq_some_iff.1 he
    obtain ⟨i1, _, i3⟩ := himp m hm
    exact rebase_fits hga hgpa hcra (i3 _ ho) hs i1 (by omega)

end Dld
