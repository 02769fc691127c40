import Verif.Lemmas.Progress
import Verif.Lemmas.LinkFile
/-! # Bounds of sizes and addresses -/
namespace Dld
open Writer Spec StringTable

variable {opts : Options} {ops : List Op} {sched : Sched} {w w' : Writer}

/-! ### Sums -/

theorem sum_le_of_subset {α : Type} [DecidableEq α] {l m : List α} (hn : l.Nodup) (hs : ∀ a ∈ l, a ∈ m) (f : α → Nat) :
    (l.map f).sum ≤ (m.map f).sum := by
  induction l generalizing m with
  | nil => simp
  | cons a l ih =>
    rw [List.nodup_cons] at hn
    have hp := List.perm_cons_erase (hs a (by simp))
    rw [(hp.map f).sum_nat]
    simp only [List.map_cons, List.sum_cons]
    have := ih hn.2 (m := m.erase a) fun b hb => (List.mem_erase_of_ne (by rintro rfl; exact hn.1 hb)).2 (hs b (by simp [hb]))
    omega

theorem sum_map_add {α : Type} (l : List α) (f g : α → Nat) : (l.map fun a => f a + g a).sum = (l.map f).sum + (l.map g).sum := by
  induction l with
  | nil => rfl
  | cons a l ih => simp only [List.map_cons, List.sum_cons, ih]; omega

theorem sum_map_le {α : Type} {l : List α} {f g : α → Nat} (h : ∀ a ∈ l, f a ≤ g a) : (l.map f).sum ≤ (l.map g).sum := by
  induction l with
  | nil => simp
  | cons a l ih =>
    have h1 := h a (by simp)
    have h2 := ih fun b hb => h b (by simp [hb])
    simp only [List.map_cons, List.sum_cons]; omega

theorem sum_map_const {α : Type} (l : List α) (k : Nat) : (l.map fun _ => k).sum = k * l.length := by
  induction l with
  | nil => simp
  | cons a l ih => simp only [List.map_cons, List.sum_cons, ih, List.length_cons, Nat.mul_add]; omega

theorem length_le_of_subset {α : Type} [DecidableEq α] {l m : List α} (hn : l.Nodup) (hs : ∀ a ∈ l, a ∈ m) : l.length ≤ m.length := by
  have := sum_le_of_subset hn hs fun _ => 1
  simpa [sum_map_const] using this

/-- values found under distinct keys weigh at most as much as all entries -/
theorem AMap.sum_get_le {κ ν : Type} [DecidableEq κ] (m : List (κ × ν)) (f : ν → Nat) {ks : List (κ × Nat)} (hn : (ks.map (·.1)).Nodup)
    (h : ∀ e ∈ ks, ∃ v, AMap.get? m e.1 = some v ∧ e.2 ≤ f v) : (ks.map (·.2)).sum ≤ (m.map fun e => f e.2).sum := by
  induction m generalizing ks with
  | nil =>
    cases ks with
    | nil => simp
    | cons e ks => obtain ⟨v, hv, _⟩ := h e (by simp); cases hv
  | cons x m ih =>
    by_cases hx : x.1 ∈ ks.map (·.1)
    · obtain ⟨e, he, hex⟩ := List.mem_map.1 hx
      have hp := List.perm_cons_erase he
      rw [(hp.map (·.2)).sum_nat]
      simp only [List.map_cons, List.sum_cons]
      have hn' : ((e :: ks.erase e).map (·.1)).Nodup := (hp.map (·.1)).nodup_iff.1 hn
      rw [List.map_cons, List.nodup_cons] at hn'
      have h1 : e.2 ≤ f x.2 := by
        obtain ⟨v, hv, hle⟩ := h e he
        obtain ⟨xk, xv⟩ := x
        have hex : e.1 = xk := hex
        simp only [AMap.get?] at hv
        rw [if_pos hex.symm] at hv
        cases hv; exact hle
      have h2 := ih hn'.2 (fun e' he' => by
        have hne : x.1 ≠ e'.1 := by
          intro heq
          exact hn'.1 (List.mem_map.2 ⟨e', he', by rw [← heq]; exact hex.symm⟩)
        obtain ⟨v, hv, hle⟩ := h e' (List.mem_of_mem_erase he')
        obtain ⟨xk, xv⟩ := x
        simp only [AMap.get?] at hv
        rw [if_neg hne] at hv
        exact ⟨v, hv, hle⟩)
      omega
    · have := ih hn (fun e' he' => by
        have hne : x.1 ≠ e'.1 := by
          intro heq
          exact hx (List.mem_map.2 ⟨e', he', heq.symm⟩)
        obtain ⟨v, hv, hle⟩ := h e' he'
        obtain ⟨xk, xv⟩ := x
        simp only [AMap.get?] at hv
        rw [if_neg hne] at hv
        exact ⟨v, hv, hle⟩)
      simp only [List.map_cons, List.sum_cons]; omega

/-! ### The layout -/

theorem roundTo_le (v : Nat) : roundTo v PAGE_ALIGNMENT ≤ v + 4095 := by
  unfold roundTo PAGE_ALIGNMENT
  simp only
  split
  · omega
  · split <;> omega

theorem placeSection_bound (st : LayoutState) (s : Section) : (placeSection st s).1.pVaddr + (placeSection st s).1.extra.getD 0 ≤
    st.pVaddr + st.extra.getD 0 + (s.sh.sh_size + 4096) := by
  have := roundTo_le st.pVaddr
  unfold placeSection loadHeader placeInFile
  simp only
  split
  · split
    · simp only [Section.setAddress, Option.getD_none]; omega
    · simp only; omega
  · split
    · simp only; omega
    · simp only; omega

theorem layoutLoop_bound (isInterp : SectionHeader → Bool) (l : List Section) (st : LayoutState) :
    (layoutLoop isInterp st l).1.pVaddr ≤ st.pVaddr + st.extra.getD 0 + (l.map fun s => s.sh.sh_size + 4096).sum := by
  induction l generalizing st with
  | nil => simp [layoutLoop]
  | cons s l ih =>
    simp only [layoutLoop, List.map_cons, List.sum_cons]
    have h1 := ih (layoutStep isInterp st s).1
    have h2 : (layoutStep isInterp st s).1.pVaddr + (layoutStep isInterp st s).1.extra.getD 0 ≤ st.pVaddr + st.extra.getD 0 + (s.sh.sh_size + 4096) := by
      rw [layoutStep_eq]; exact placeSection_bound st s
    omega

theorem countLoads_le (f : Nat) (l : List Section) : countLoads f l ≤ l.length := by
  induction l generalizing f with
  | nil => simp [countLoads]
  | cons s l ih =>
    simp only [countLoads, List.length_cons]
    have := ih s.sh.sh_flags
    have := ih f
    repeat' split
    all_goals omega

/-! ### The sizes of the sections of the linker -/

theorem nextPow2_le (n : Nat) : nextPow2 n ≤ 2 * n + 1 := by
  unfold nextPow2
  split
  · omega
  · next h =>
    have := Nat.log2_self_le (n := n - 1) (by omega)
    rw [Nat.pow_succ]; omega

theorem packed_le {κ : Type} {l : List (κ × Nat × Nat)} {a b : Nat} (h : Packed a l b) (hn : ∀ e ∈ l, e.2.2 ≤ 2) : b ≤ a + 2 * l.length := by
  induction l generalizing a with
  | nil => cases h; simp
  | cons e l ih =>
    obtain ⟨k, o, n⟩ := e
    obtain ⟨_, _, h⟩ := h
    have h1 := ih h fun e he => hn e (by simp [he])
    have h2 := hn (k, o, n) (by simp)
    simp only [List.length_cons] at h1 h2 ⊢; omega

theorem slotsFor_le (t : SymbolTable) (l : List (Rela × SymbolRef)) (r : SymbolRef) : slotsFor t l r ≤ 2 := by
  unfold slotsFor; split <;> omega

theorem Writer.Early.got_le (st : Early sched w) (h : Hist opts ops w) : st.scanned.gotLen ≤ 1 + 2 * (relocsOf w).length ∧
    st.scanned.gotPlt.length ≤ (relocsOf w).length ∧ st.scanned.plt.length ≤ (relocsOf w).length := by
  obtain ⟨ks, gs, hI, _⟩ := st.scan h
  have h1 : gs.length ≤ (relocsOf w).length := by
    have := length_le_of_subset (m := (relocsOf w).map (·.2)) hI.gotNodup fun r hr => by
      obtain ⟨rel, hm, _⟩ := (hI.users r).1 hr
      exact List.mem_map.2 ⟨_, hm, rfl⟩
    simpa using this
  have h2 : ks.length ≤ (relocsOf w).length := by
    have := length_le_of_subset (m := (relocsOf w).map (·.2)) hI.nodup fun r hr => by
      obtain ⟨rel, hm, _⟩ := (hI.calls r).1 hr
      exact List.mem_map.2 ⟨_, hm, rfl⟩
    simpa using this
  have h3 := packed_le hI.packed fun e he => by rw [hI.count e he]; exact slotsFor_le _ _ _
  refine ⟨?_, ?_, ?_⟩
  · show st.scanned.gotLen ≤ _; have h3 : st.scanned.gotLen ≤ _ := h3; omega
  · have : st.scanned.gotPlt = _ := hI.gotPlt
    rw [this]; simpa using h2
  · have : st.scanned.plt = _ := hI.plt
    rw [this]; simpa using h2

theorem Writer.Early.hash_le (st : Early sched w) (hv : sched.Valid) (hl : w.dynsym.symbols.length < 2 ^ 32) :
    (serHashTable st.filled.hashTab).length ≤ 16 + 8 * w.dynsym.symbols.length ∧
    (serGnuHashTable st.filled.gnuTab).length ≤ 64 + 16 * w.dynsym.symbols.length := by
  have hf := st.hfill
  have e0 : (expandDynsym sched (resizeGotPlt (resizeGot st.scanned))).dynsym = w.dynsym := st.scanned_dynsym
  have hlen := SymbolTable.sorted_length hv.dynIter w.dynsym
  simp only [fillHashes, bind_ok, unwrap_ok, e0] at hf
  obtain ⟨a, h1, b, h2, h3⟩ := hf
  have ea : st.filled.hashTab = a := by rw [← Except.ok.inj h3]
  have eb : st.filled.gnuTab = b := by rw [← Except.ok.inj h3]
  rw [ea, eb]
  obtain ⟨B, h4, hB⟩ := HashTable.addSymbols_spec ((w.dynsym.sorted sched.dynIter).map (·.hash)) (by rw [List.length_map]; omega)
  rw [h4] at h1
  have hB1 := hB.lenB
  have hB2 := hB.lenC
  rw [List.length_map, hlen] at hB1 hB2
  have h1 := Option.some.inj h1
  refine ⟨?_, ?_⟩
  · rw [← h1]
    unfold serHashTable HashTable.mk'
    simp only [List.length_append, length_le, length_flatMap_le, hB1, hB2]
    omega
  · unfold GnuHashTable.addSymbols at h2
    split at h2
    · cases h2
    · next x rest hx =>
      have hr : rest.length + 1 = w.dynsym.symbols.length := by
        have := congrArg List.length hx
        rw [List.length_map, hlen] at this
        simpa using this.symm
      rw [hx] at h2
      simp only [List.length_cons] at h2
      have hu : u32 (rest.length + 1) = rest.length + 1 := Nat.mod_eq_of_lt (by omega)
      rw [hu] at h2
      have h2 := Option.some.inj h2
      have hbl : ∀ (l : List UInt32) (bl : List Nat), (l.foldl (fun b h => GnuHashTable.calculateBloom b h 64 26) bl).length = bl.length := by
        intro l
        induction l with
        | nil => intro _; rfl
        | cons y l ih => intro bl; rw [List.foldl_cons, ih, GnuHashTable.length_calculateBloom]
      have hch : ∀ l : List UInt32, (l.flatMap fun c => le 4 c.toNat).length = 4 * l.length := by
        intro l
        induction l with
        | nil => rfl
        | cons y l ih => simp only [List.flatMap_cons, List.length_append, ih, length_le, List.length_cons]; omega
      rw [← h2]
      unfold serGnuHashTable
      simp only [List.length_append, length_le, length_flatMap_le, hbl, List.length_replicate, GnuHashTable.length_fillBuckets,
        hch, GnuHashTable.length_fillChains]
      have := nextPow2_le ((rest.length + 1 - 1) * 12 / 64)
      omega

/-- a measure of the contents of the writer before `compute_sections`: names, sections, symbols and relocations -/
def Writer.weight (w : Writer) : Nat :=
  (w.sections.map fun s => s.sh.sh_size + 4300).sum + w.shstr.totalLen + w.symstr.totalLen + w.dynstr.totalLen + 64 * (relocsOf w).length +
    100 * w.symtab.symbols.length + 64 * w.dynsym.symbols.length + 16 * w.dynEntries.length + (w.dynsym.symbols.map fun e => e.2.sym.st_size).sum

theorem Writer.Early.imports_le (st : Early sched w) (hv : sched.Valid) : st.imports.length ≤ w.symtab.symbols.length := by
  unfold Early.imports
  refine Nat.le_trans (List.length_filterMap_le _ _) ?_
  rw [(hv.symIter _).length_eq]
  simp [AMap.keys]

theorem dynRelsFrom_le (ms : List Import) (a : Nat) : (dynRelsFrom a ms).length ≤ 2 * ms.length := by
  induction ms generalizing a with
  | nil => simp [dynRelsFrom]
  | cons m ms ih =>
    simp only [dynRelsFrom, List.length_append, List.length_cons]
    have := ih (a + m.copy.getD 0)
    generalize (dynRelsFrom (a + m.copy.getD 0) ms).length = n at this ⊢
    cases m.got <;> cases m.copy <;> simp <;> omega

theorem called_le (ms : List Import) : (called ms).length ≤ ms.length := List.length_filterMap_le _ _

theorem dynEntries_le (n : Name) (sh : SectionHeader) : dynEntries n sh ≤ 4 := by
  unfold dynEntries
  repeat' split
  all_goals omega

theorem Writer.Early.dynamic_le (st : Early sched w) {hs : HashStyle} (hsf : SecFacts hs ops w) :
    (st.growth P.dynamic).size.getD 0 ≤ 16 * (w.dynEntries.length + 4 * w.sections.length + 1) := by
  have e5 : (st.growth P.dynamic).size = (st.dynamic.sections.find? fun s => s.ptr == P.dynamic).map (·.sh.sh_size) := rfl
  rw [e5]
  cases hf : st.dynamic.sections.find? fun s => s.ptr == P.dynamic with
  | none => simp
  | some s =>
    have hm := List.mem_of_find?_eq_some hf
    have hp : s.ptr = P.dynamic := by simpa using List.find?_some hf
    have hl : st.dynamic.sections.length = w.sections.length := by
      have := congrArg List.length (st.dynamic_tag hsf.known)
      simpa using this
    rw [sizeDynamic_ok st.hdynamic] at hm hl
    simp only [modSec, List.mem_map, List.length_map] at hm hl
    obtain ⟨t, _, rfl⟩ := hm
    have : (st.dynrel.sections.map fun s => Dld.dynEntries (secNameD st.dynrel s) s.sh).sum ≤ (st.dynrel.sections.map fun _ => 4).sum :=
      sum_map_le fun s _ => dynEntries_le _ _
    rw [sum_map_const, hl] at this
    rw [st.dynrel_rest.2]
    by_cases hpt : t.ptr = P.dynamic
    · simp only [if_pos hpt, Option.map_some, Option.getD_some, setSize]
      omega
    · rw [if_neg hpt] at hp; exact absurd hp hpt

/-- the sizes of all sections before they are placed -/
theorem Writer.Early.sizes_le (st : Early sched w) (hv : sched.Valid) (h : Hist opts ops w) (hl : w.dynsym.symbols.length < 2 ^ 32) :
    (st.dynamic.sections.map (·.sh.sh_size)).sum + 4236 * w.sections.length ≤ w.weight + 512 ∧
    st.dynamic.sections.length = w.sections.length := by
  have hsf := h.secFacts
  have hu := h.untouched
  have hlen : st.scanned.sections.length = w.sections.length := by
    have := congrArg List.length (scan_sections st.hscan).1
    simpa using this
  rw [st.presort hsf.known]
  refine ⟨?_, by simpa using hlen⟩
  rw [List.map_map]
  have hsz : (w.sections.map (·.sh.sh_size)) = st.scanned.sections.map (·.sh.sh_size) :=
    (map_of_map (scan_sections st.hscan).1 (fun b => b.2.2.2.2.1.sh_size) fun _ => rfl).symm
  have hptr : st.scanned.sections.map (·.ptr) = w.sections.map (·.ptr) := map_of_map (scan_sections st.hscan).1 (fun b => b.1) fun _ => rfl
  have h1 : (st.scanned.sections.map ((·.sh.sh_size) ∘ fun s => (st.growth s.ptr).apply s)).sum ≤
      (st.scanned.sections.map fun s => s.sh.sh_size + (st.growth s.ptr).size.getD 0).sum := by
    apply sum_map_le
    intro s _
    show (st.growth s.ptr).size.getD s.sh.sh_size ≤ _
    cases (st.growth s.ptr).size <;> simp
  rw [sum_map_add] at h1
  have h2 : (st.scanned.sections.map fun s => (st.growth s.ptr).size.getD 0).sum ≤ ((List.range 16).map fun p => (st.growth p).size.getD 0).sum := by
    have e : (st.scanned.sections.map fun s => (st.growth s.ptr).size.getD 0) = (st.scanned.sections.map (·.ptr)).map fun p => (st.growth p).size.getD 0 := by
      rw [List.map_map]; rfl
    rw [e, hptr]
    have hn := hsf.nodup
    have h3 : ((w.sections.map (·.ptr)).map fun p => (st.growth p).size.getD 0).sum ≤
        (((w.sections.map (·.ptr)).filter (· < 16)).map fun p => (st.growth p).size.getD 0).sum := by
      generalize w.sections.map (·.ptr) = l
      clear hn
      induction l with
      | nil => simp
      | cons p l ih =>
        by_cases hp : p < 16
        · rw [List.filter_cons_of_pos (by simpa using hp)]; simp only [List.map_cons, List.sum_cons]; omega
        · rw [List.filter_cons_of_neg (by simpa using hp), List.map_cons, List.sum_cons, st.growth_pushed (p := p) (by simp only [P.first]; omega)]
          simpa using ih
    refine Nat.le_trans h3 (sum_le_of_subset (hn.filter _) ?_ _)
    intro p hp
    rw [List.mem_filter] at hp
    exact List.mem_range.2 (by simpa using hp.2)
  obtain ⟨g1, g2, g3⟩ := st.got_le h
  obtain ⟨k1, k2⟩ := st.hash_le hv hl
  have L := st.linkRels hv h
  have hi := st.imports_le hv
  have hd := st.dynamic_le hsf
  have r1 : st.dynrel.dynRels.length ≤ 2 * st.imports.length := by rw [L.dynRels]; exact dynRelsFrom_le _ _
  have r2 : st.dynrel.pltRels.length ≤ st.imports.length := by rw [L.pltRels, List.length_map]; exact called_le _
  have hrest := (scan_sections st.hscan).2
  have s1 : st.scanned.shstr = w.shstr := by rw [hrest]
  have s2 : st.scanned.symstr = w.symstr := by rw [hrest]
  have s3 : st.scanned.dynstr = w.dynstr := by rw [hrest]
  have s4 : st.scanned.dynsym = w.dynsym := by rw [hrest]
  have s5 : st.scanned.copyRel = {} := by rw [hrest]; exact hu.copyRel
  have s6 : st.scanned.symtab.symbols.length = w.symtab.symbols.length := by
    have := congrArg List.length (SymbolTable.view_keys (scan_view unscan_blind st.hscan))
    simpa [AMap.keys] using this
  have h3 : ((List.range 16).map fun p => (st.growth p).size.getD 0).sum =
      st.scanned.shstr.totalLen + st.scanned.symstr.totalLen + st.scanned.dynstr.totalLen + 8 * st.scanned.gotLen + 8 * (st.scanned.gotPlt.length + 3) +
      st.scanned.plt.size + st.scanned.symtab.totalLen + st.scanned.dynsym.totalLen + (st.growth P.dynamic).size.getD 0 +
      st.dynrel.dynRels.length * sizeofRela + st.dynrel.pltRels.length * sizeofRela + st.scanned.copyRel.size +
      (serHashTable st.filled.hashTab).length + (serGnuHashTable st.filled.gnuTab).length := by
    have : List.range 16 = [P.null, P.shstr, P.symstr, P.dynstr, P.interp, P.got, P.gotPlt, P.plt, P.sym, P.dynsym, P.dynamic, P.relaDyn, P.relaPlt, P.copyRel, P.hash, P.gnuHash] := by decide
    rw [this]
    simp only [List.map_cons, List.map_nil, List.sum_cons, List.sum_nil]
    have z0 : (st.growth P.null).size.getD 0 = 0 := rfl
    have z1 : (st.growth P.shstr).size.getD 0 = st.scanned.shstr.totalLen := rfl
    have z2 : (st.growth P.symstr).size.getD 0 = st.scanned.symstr.totalLen := rfl
    have z3 : (st.growth P.dynstr).size.getD 0 = st.scanned.dynstr.totalLen := rfl
    have z4 : (st.growth P.interp).size.getD 0 = 0 := rfl
    have z5 : (st.growth P.got).size.getD 0 = 8 * st.scanned.gotLen := rfl
    have z6 : (st.growth P.gotPlt).size.getD 0 = 8 * (st.scanned.gotPlt.length + 3) := rfl
    have z7 : (st.growth P.plt).size.getD 0 = st.scanned.plt.size := rfl
    have z8 : (st.growth P.sym).size.getD 0 = st.scanned.symtab.totalLen := rfl
    have z9 : (st.growth P.dynsym).size.getD 0 = st.scanned.dynsym.totalLen := rfl
    have z11 : (st.growth P.relaDyn).size.getD 0 = st.dynrel.dynRels.length * sizeofRela := rfl
    have z12 : (st.growth P.relaPlt).size.getD 0 = st.dynrel.pltRels.length * sizeofRela := rfl
    have z13 : (st.growth P.copyRel).size.getD 0 = st.scanned.copyRel.size := rfl
    have z14 : (st.growth P.hash).size.getD 0 = (serHashTable st.filled.hashTab).length := rfl
    have z15 : (st.growth P.gnuHash).size.getD 0 = (serGnuHashTable st.filled.gnuTab).length := rfl
    rw [z0, z1, z2, z3, z4, z5, z6, z7, z8, z9, z11, z12, z13, z14, z15]
    simp only [Nat.zero_add, Nat.add_zero, Nat.add_assoc]
  rw [s1, s2, s3, s4, s5] at h3
  have z : Plt.size st.scanned.plt = (st.scanned.plt.length + 1) * 16 := rfl
  have z' : st.scanned.symtab.totalLen = w.symtab.symbols.length * 24 := by rw [← s6]; rfl
  have z'' : w.dynsym.totalLen = w.dynsym.symbols.length * 24 := rfl
  have z3 : sizeofRela = 24 := rfl
  have z4 : ({} : CopyRel).size = 0 := rfl
  rw [z, z', z'', z3, z4] at h3
  rw [← hsz] at h1
  unfold weight
  rw [sum_map_add, sum_map_const]
  omega

/-- all addresses are bounded by the weight of the input -/
theorem Writer.Early.pVaddr_le (st : Early sched w) (hv : sched.Valid) (h : Hist opts ops w) (hl : w.dynsym.symbols.length < 2 ^ 32) :
    st.placed.pVaddr ≤ 0x200000 + w.weight + 1024 := by
  have hu := h.untouched
  obtain ⟨h1, h2⟩ := st.sizes_le hv h hl
  obtain ⟨s1, _, _, s2, s3, s4, _, s5, _⟩ := st.sorted_rest
  have hb : st.placed.pVaddr = (finalState (fun sh => w.shstr.name sh.sh_name == some b!".interp") sizeofProgramHeader 0x200000 st.sorted.sections).1.pVaddr := by
    unfold Early.placed genProgramHeaders
    rw [s1, s2, s3, s4, s5, hu.eh, hu.programHeaders, hu.pVaddr, hu.fileOffset]
    have : initHeader.e_phentsize = sizeofProgramHeader := rfl
    rw [this, generateProgramHeaders_eq]
  rw [hb]
  obtain ⟨p1, p2⟩ := sortSecs_perm hv st.hsort (F := fun s => s.sh.sh_size) (fun _ _ => rfl)
  have hsum : (st.sorted.sections.map (·.sh.sh_size)).sum = (st.dynamic.sections.map (·.sh.sh_size)).sum := by
    rw [← List.take_append_drop 1 st.sorted.sections, ← List.take_append_drop 1 st.dynamic.sections, List.map_append, List.map_append, p1]
    exact (p2.append_left _).sum_nat
  have hlen : st.sorted.sections.length = w.sections.length := by
    rw [← h2, ← List.take_append_drop 1 st.sorted.sections, ← List.take_append_drop 1 st.dynamic.sections, List.length_append, List.length_append]
    have a := congrArg List.length p1
    have b := p2.length_eq
    simp only [List.length_map] at a b
    rw [a, b]
  have hc : countProgramHeaders st.sorted.sections ≤ w.sections.length + 3 := by
    unfold countProgramHeaders
    have := countLoads_le 0 (st.sorted.sections.drop 1)
    rw [List.length_drop] at this
    omega
  have hdrop : ((st.sorted.sections.drop 1).map fun s => s.sh.sh_size + 4096).sum ≤ (st.sorted.sections.map (·.sh.sh_size)).sum + 4096 * w.sections.length := by
    rw [sum_map_add, sum_map_const, List.length_drop, hlen]
    have : (st.sorted.sections.map (·.sh.sh_size)).sum = ((st.sorted.sections.take 1).map (·.sh.sh_size)).sum + ((st.sorted.sections.drop 1).map (·.sh.sh_size)).sum := by
      rw [← List.sum_append, ← List.map_append, List.take_append_drop]
    omega
  have hb := layoutLoop_bound (fun sh => w.shstr.name sh.sh_name == some b!".interp") (st.sorted.sections.drop 1)
    { fileOffset := 0, pVaddr := 0x200000, extra := some (countProgramHeaders st.sorted.sections * sizeofProgramHeader + sizeofHeader), flags := 0, cur := none, phs := [] }
  have : (finalState (fun sh => w.shstr.name sh.sh_name == some b!".interp") sizeofProgramHeader 0x200000 st.sorted.sections).1.pVaddr ≤
      0x200000 + (countProgramHeaders st.sorted.sections * 56 + 64) + ((st.sorted.sections.drop 1).map fun s => s.sh.sh_size + 4096).sum := hb
  omega

end Dld
