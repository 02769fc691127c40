import Verif.Lemmas.LinkFile
/-! # The procedure linkage table and the global offset table in the output file -/
namespace Dld
open Writer Spec StringTable

variable {opts : Options} {ops : List Op} {sched : Sched} {w w' : Writer} {file : Bytes} {secs : List Section}

/-! ### Names and references -/

theorem GoodLink.refers (h : GoodLink opts ops sched w w' file secs) {ns nd : List Name} (T : TableFacts ns nd ops w) {r : SymbolRef} {n : Name}
    (hr : Refers ops r n) : r = .named (u32 (nameOff ns n)) ∧ n ∈ ns := by
  obtain ⟨s, sec, path, hm, hs⟩ := hr
  refine ⟨(T.inv.sref _ _ _ _ _ hm).2 ?_, (T.symNames n).2 (.inr (mem_symNames hm))⟩
  have : stType s.st_info = s.st_info % 16 := rfl
  rw [this]; exact hs

/-- an imported symbol has a name -/
theorem GoodLink.imported_name (h : GoodLink opts ops sched w w' file secs) {ns nd : List Name} (T : TableFacts ns nd ops w) {r : SymbolRef}
    (hr : Imported w.symtab r) : ∃ n ∈ ns, r = .named (u32 (nameOff ns n)) ∧ ImportedIn ops n ∧ Refers ops r n := by
  obtain ⟨s, hs, hd⟩ := hr
  obtain ⟨d, hd⟩ := Option.isSome_iff_exists.1 hd
  obtain ⟨n, hn, hk, e, path, hop⟩ := T.inv.link _ _ _ hs hd
  have hne := h.symNames.nonempty _ _ _ _ hop
  have hi := hn.resolve_left hne
  have hns : n ∈ ns := by
    obtain ⟨a, _, _, _, b, h1, s, sec, p, r, h2⟩ := hi
    exact (T.symNames n).2 (.inr (mem_symNames (ops := ops) (by rw [h1]; exact List.mem_append_left _ h2)))
  refine ⟨n, hns, hk, hi, ?_⟩
  subst hk
  rcases T.mention _ _ hs with h0 | ⟨e', sec, n', p', hm, hne'⟩
  · exfalso
    have h1 : nameOff ns [] = 0 := nameOff_nil T.symstr.head
    have h2 := u32_nameOff_inj T.symstr h.symstr hns ((T.symNames []).2 (.inl rfl)) (by rw [h0, h1]; rfl)
    exact hne h2
  · have := (T.inv.sref _ _ _ _ _ hm).2 hne'
    have hn' := u32_nameOff_inj T.symstr h.symstr hns ((T.symNames n').2 (.inr (mem_symNames hm))) (SymbolRef.named.inj this)
    subst hn'
    exact ⟨e', sec, p', hm, hne'⟩

theorem GoodLink.imported_of (h : GoodLink opts ops sched w w' file secs) {ns nd : List Name} (T : TableFacts ns nd ops w) {n : Name}
    (hi : ImportedIn ops n) : Imported w.symtab (.named (u32 (nameOff ns n))) :=
  h.run.hist.imported T.pre hi

/-- the name behind a reference -/
def refName (w : Writer) : SymbolRef → Name
  | .named k => (w.symstr.name k).getD []
  | .section _ _ => []

theorem GoodLink.refName_of (h : GoodLink opts ops sched w w' file secs) {ns nd : List Name} (T : TableFacts ns nd ops w) {n : Name} (hn : n ∈ ns) :
    refName w (.named (u32 (nameOff ns n))) = n := by
  unfold refName
  simp only
  rw [u32_nameOff T.symstr h.symstr hn, Holds_name T.symstr hn]; rfl

/-! ### Sections of the file -/

theorem sectionNamed_one {n : Name} {s : EShdr} (h : sectionsNamed file n = [s]) :
    sectionNamed file n = some s ∧ bodyNamed file n = bodyOf file s ∧ addrNamed file n = s.addr := by
  have : sectionNamed file n = some s := by simp [sectionNamed, h]
  simp [bodyNamed, addrNamed, this]

theorem fromLe_leInt_nat {n : Nat} (h : n < 2 ^ 64) : fromLe (leInt 8 n) = n := by
  have h' : n < 256 ^ 8 := by rw [show (256 : Nat) ^ 8 = 2 ^ 64 by decide]; exact h
  unfold leInt
  have : ((n : Int) % (256 ^ 8 : Nat)).toNat = n := by
    rw [show ((256 ^ 8 : Nat) : Int) = 18446744073709551616 by decide]
    rw [show (256 : Nat) ^ 8 = 18446744073709551616 by decide] at h'
    omega
  rw [this, fromLe_le_of_lt h']

/-- the name of a dynamic symbol in the file -/
theorem GoodLink.dynName_of (h : GoodLink opts ops sched w w' file secs) {ns nd : List Name} (T : TableFacts ns nd ops w) {k : Nat} {y : Symbol} {n : Name}
    (hy : (w'.dynsym.sorted sched.dynIter)[k]? = some y) (hn : n ∈ nd) (hz : (0 : UInt8) ∉ n) (hk : y.sym.st_name = u32 (nameOff nd n)) :
    dynName file k = some n := by
  obtain ⟨a, b, c, d, e, f, X⟩ := h.tables
  obtain ⟨_, b1, _⟩ := sectionNamed_one X.mdynsym.2.2
  obtain ⟨_, d1, _⟩ := sectionNamed_one X.mdynstr.2.2
  unfold dynName
  rw [b1, X.dyns, List.getElem?_map, hy, d1, X.dynstrs]
  have hc := Holds.cstr T.dynstr hn hz
  rw [← u32_nameOff T.dynstr h.dynstr hn, ← hk] at hc
  exact hc

/-! ### The PLT -/

/-- **The procedure linkage table of the output.** The functions of shared libraries that objects call through the PLT, and no others,
have one entry each: `names` lists them. `.plt` is its header and one entry for each, `.got.plt` three reserved words and one word for
each, `.rela.plt` one relocation for each; every entry is a lazily bound call of its own function, and it is the entry that the relocations of
the objects use. -/
theorem plt_in_file (h : GoodLink opts ops sched w w' file secs) : ∃ names : List Name,
    names.Nodup ∧ (∀ n, n ∈ names ↔ ImportedIn ops n ∧ CalledIn ops n) ∧
    (bodyNamed file b!".plt").length = 16 * (names.length + 1) ∧
    (bodyNamed file b!".got.plt").length = 8 * (names.length + 3) ∧
    slice (bodyNamed file b!".got.plt") 0 24 = List.replicate 24 0 ∧
    (relasOf (bodyNamed file b!".rela.plt")).length = names.length ∧
    PltHeader file ∧
    ∀ i n, names[i]? = some n → (∃ j k, PltSlot file i j k n) ∧ ∀ r s, Refers ops r n → w'.symtab.get r = some s → s.inPlt = some i := by
  obtain ⟨st, hst⟩ := h.run.stages
  obtain ⟨ns, nd, T⟩ := h.run.hist.tableFacts
  obtain ⟨ks, gs, hI, _⟩ := st.scan h.run.hist
  have L := st.linkRels h.run.valid h.run.hist
  have base : ∀ p ∈ [P.plt, P.gotPlt, P.got, P.copyRel], p ∈ (baseIdents opts.hashStyle).map (·.1) := by
    cases opts.hashStyle <;> decide
  obtain ⟨t, ht, htp, htn⟩ := h.own (base P.plt (by simp))
  obtain ⟨g, hg, hgp, hgn⟩ := h.own (base P.gotPlt (by simp))
  obtain ⟨got, hgot, hgotp, _⟩ := h.own (base P.got (by simp))
  obtain ⟨cr, hcr, hcrp, _⟩ := h.own (base P.copyRel (by simp))
  have F := h.run.pltFile h.good.flags h.good.clean st hst hI ht htp hg hgp
  have hreads := h.run.reads h.good h.names h.fit
  obtain ⟨_, hR⟩ := h.run.final_rels h.good.flags st hst hgot hgotp hg hgp hcr hcrp
  obtain ⟨x1, x2, x3, x4, relaPlt, x6, X⟩ := h.tables
  obtain ⟨_, t1, t2⟩ := sectionNamed_one htn
  obtain ⟨_, g1, g2⟩ := sectionNamed_one hgn
  obtain ⟨_, r1, _⟩ := sectionNamed_one X.mrelaPlt.2.2
  have t1 : bodyNamed file b!".plt" = contents t := t1.trans (hreads.body t ht)
  have g1 : bodyNamed file b!".got.plt" = contents g := g1.trans (hreads.body g hg)
  have t2 : addrNamed file b!".plt" = t.sh.sh_addr := t2
  have g2 : addrNamed file b!".got.plt" = g.sh.sh_addr := g2
  -- the references called and their names
  have hname : ∀ r ∈ ks, ∃ n ∈ ns, r = .named (u32 (nameOff ns n)) ∧ ImportedIn ops n ∧ Refers ops r n := by
    intro r hr
    obtain ⟨rel, _, _, hi⟩ := (hI.calls r).1 hr
    exact h.imported_name T hi
  have hfn : ∀ r ∈ ks, ∀ n ∈ ns, r = .named (u32 (nameOff ns n)) → refName w r = n := by
    intro r _ n hn hr; rw [hr]; exact h.refName_of T hn
  -- the relocations and the references called
  have hperm : ((called st.imports).map fun e => SymbolRef.named e.1.key).Perm ks := by
    refine (List.perm_ext_iff_of_nodup ?_ hI.nodup).2 ?_
    · have h1 := (importKeys_nodup st.toEarly h.run.valid T).sublist ((sublist_called st.imports).map (·.key))
      rw [List.map_map] at h1
      have : ((called st.imports).map fun e => SymbolRef.named e.1.key) = ((called st.imports).map ((·.key) ∘ (·.1))).map SymbolRef.named := by
        rw [List.map_map]; rfl
      rw [this]
      unfold List.Nodup at h1 ⊢
      rw [List.pairwise_map]
      exact h1.imp fun hne he => hne (SymbolRef.named.inj he)
    · intro r
      have hslot : ∀ r s, st.scanned.symtab.get r = some s → (s.inGotPlt.isSome ↔ r ∈ ks) := by
        intro r s hs
        rw [(hI.inPlt r s hs).2, hI.gotPlt, AMap.get?_map_value (f := fun i => (i + 3) * 8), get?_zipIdx]
        by_cases hm : r ∈ ks <;> simp [hm]
      rw [List.mem_map]
      constructor
      · rintro ⟨e, he, rfl⟩
        obtain ⟨hm, ho⟩ := mem_called.1 he
        obtain ⟨n, F⟩ := st.import_facts T h.named h.symNames hm
        obtain ⟨s, hs, _, hgp⟩ := F.scan
        exact (hslot _ s hs).1 (by rw [← hgp, ho]; rfl)
      · intro hr
        obtain ⟨rel, _, _, s, hs, hd⟩ := (hI.calls r).1 hr
        obtain ⟨n, _, hk, _⟩ := hname r hr
        obtain ⟨d, hd⟩ := Option.isSome_iff_exists.1 hd
        rw [hk] at hs
        obtain ⟨m, hm, hmk⟩ := L.all _ s d hs hd
        obtain ⟨n', F⟩ := st.import_facts T h.named h.symNames hm
        obtain ⟨s1, hs1, _, hgp⟩ := F.scan
        rw [hmk] at hs1
        have hsome := (hslot _ s1 hs1).2 (by rw [← hk]; exact hr)
        rw [← hgp] at hsome
        obtain ⟨o, ho⟩ := Option.isSome_iff_exists.1 hsome
        exact ⟨(m, o), mem_called.2 ⟨hm, ho⟩, by rw [hk, ← hmk]⟩
  have hlen : (called st.imports).length = ks.length := by have := hperm.length_eq; rwa [List.length_map] at this
  refine ⟨ks.map (refName w), ?_, ?_, ?_, ?_, ?_, ?_, ?_, ?_⟩
  · unfold List.Nodup
    rw [List.pairwise_map]
    refine List.Pairwise.imp_of_mem ?_ hI.nodup
    intro r r' hr hr' hne he
    obtain ⟨n, hn, hk, _⟩ := hname r hr
    obtain ⟨n', hn', hk', _⟩ := hname r' hr'
    rw [hfn r hr n hn hk, hfn r' hr' n' hn' hk'] at he
    subst he
    exact hne (hk.trans hk'.symm)
  · intro n
    rw [List.mem_map]
    constructor
    · rintro ⟨r, hr, rfl⟩
      obtain ⟨n, hn, hk, hi, href⟩ := hname r hr
      rw [hfn r hr n hn hk]
      obtain ⟨rel, hrel, hp, _⟩ := (hI.calls r).1 hr
      obtain ⟨sr, path, hop⟩ := (h.run.hist.mem_relocsOf rel r).1 hrel
      exact ⟨hi, r, rel, sr, path, href, hop, hp⟩
    · rintro ⟨hi, r, rel, sr, path, href, hop, hp⟩
      obtain ⟨hk, hn⟩ := h.refers T href
      have hr : r ∈ ks := (hI.calls r).2 ⟨rel, (h.run.hist.mem_relocsOf rel r).2 ⟨sr, path, hop⟩, hp, by rw [hk]; exact h.imported_of T hi⟩
      exact ⟨r, hr, hfn r hr n hn hk⟩
  · rw [t1, F.lenP, List.length_map]
  · rw [g1, F.lenG, List.length_map]
  · rw [g1]; exact F.reserved
  · rw [r1, X.plts, List.length_map, hR, List.length_map, L.pltRels, List.length_map, hlen, List.length_map]
  · obtain ⟨h1, h2⟩ := decode_pltHead (addr := (t.sh.sh_addr : Int)) F.head F.headFits.1 F.headFits.2
    refine ⟨?_, ?_⟩
    · rw [t1, t2, g2, h1]
      congr 3; omega
    · rw [t1, t2, g2]
      refine h2.trans ?_
      congr 3; omega
  · intro i n hin
    rw [List.getElem?_map, Option.map_eq_some_iff] at hin
    obtain ⟨r, hr, hrn⟩ := hin
    have hrm := List.mem_of_getElem? hr
    obtain ⟨n', hn', hk, hi, _⟩ := hname r hrm
    have := hfn r hrm n' hn' hk
    rw [hrn] at this
    subst this
    refine ⟨?_, ?_⟩
    rotate_left
    · intro r' s' href hs'
      obtain ⟨hk', _⟩ := h.refers T href
      have hrr : r' = r := hk'.trans hk.symm
      subst hrr
      rw [← hst] at hs'
      obtain ⟨s1, _, hs1, _, _, hp, _⟩ := st.final_slots h.run.valid h.run.hist hs'
      rw [hp, (hI.inPlt _ s1 hs1).1, hI.plt, get?_zipIdx, if_pos hrm]
      obtain ⟨hlt, hge⟩ := List.getElem?_eq_some_iff.1 hr
      rw [← hge, List.Nodup.idxOf_getElem hI.nodup i hlt]
      rfl
    obtain ⟨s, j, hs, hj, f1, f2, f3, f4, f5⟩ := F.entry i r hr
    rw [hk] at hs
    rcases L.pos _ s hs with ⟨j', e, he, hek, hj'⟩ | ⟨_, hnone⟩
    · rw [hj] at hj'
      cases hj'
      obtain ⟨hm, ho⟩ := mem_called.1 (List.mem_of_getElem? he)
      obtain ⟨n', I⟩ := st.import_facts T h.named h.symNames hm
      have hnn : n' = n := u32_nameOff_inj T.symstr h.symstr I.memS hn' (by rw [← I.key, hek])
      subst hnn
      obtain ⟨y, hy, _, hyn⟩ := I.entry h.run.valid h.run.hist T
      rw [hst] at hy
      obtain ⟨op, path, hoff⟩ := I.offer
      have hjlt : j < 2147483648 := by
        have h1 : j < (called st.imports).length := (List.getElem?_eq_some_iff.1 he).1
        have hl : ks.length - 1 < ks.length := by have := (List.getElem?_eq_some_iff.1 hr).1; omega
        obtain ⟨_, _, _, _, _, hb, _⟩ := F.entry (ks.length - 1) ks[ks.length - 1] (List.getElem?_eq_getElem hl)
        unfold InI32 at hb
        omega
      obtain ⟨c1, c2, c3⟩ := decode_pltCode (addr := ((t.sh.sh_addr + 16 * (i + 1) : Nat) : Int)) f4 f1 f2 hjlt
      have hoe : e.2 = (i + 3) * 8 := by
        obtain ⟨s1, hs1, _, hgp⟩ := I.scan
        have h2 := (hI.inPlt _ s1 hs1).2
        rw [← hgp, ho, hI.gotPlt, AMap.get?_map_value (f := fun i => (i + 3) * 8), hek, ← hk, get?_zipIdx, if_pos hrm] at h2
        simp only [Option.map_some, Option.some.injEq] at h2
        rw [h2]
        have : ks.idxOf r = i := by
          obtain ⟨hlt, hge⟩ := List.getElem?_eq_some_iff.1 hr
          rw [← hge]; exact List.Nodup.idxOf_getElem hI.nodup i hlt
        omega
      refine ⟨j, e.1.index, ?_, ?_, ?_, ?_, ?_, ?_⟩
      · rw [t1, t2, g2, c1]; congr 3; omega
      · rw [g1, t2]
        unfold field
        rw [show 8 * (i + 3) = (i + 3) * 8 by omega, f5]
        exact fromLe_leInt_nat (n := t.sh.sh_addr + 16 * (i + 1) + 6) (by omega)
      · rw [t1, t2]
        exact c2
      · rw [t1, t2]
        refine c3.trans ?_
        congr 3; omega
      · rw [r1, X.plts, hR, L.pltRels, g2]
        simp only [List.getElem?_map, he, Option.map_some, rebase_slot]
        rw [rela_toSpec _ _ _ (by decide), hoe]
        congr 2; omega
      · exact h.dynName_of T hy I.memD (h.symNames.dyn _ _ _ _ hoff) hyn
    · rw [hj] at hnone; cases hnone

/-! ### GOT slots -/

theorem Packed.bounds {κ : Type} {a b : Nat} {l : List (κ × Nat × Nat)} (h : Packed a l b) :
    a ≤ b ∧ ∀ e ∈ l, a ≤ e.2.1 ∧ 0 < e.2.2 ∧ e.2.1 + e.2.2 ≤ b := by
  induction l generalizing a with
  | nil => cases h; exact ⟨Nat.le_refl _, by simp⟩
  | cons e l ih =>
    obtain ⟨k, o, n⟩ := e
    obtain ⟨rfl, hn, h⟩ := h
    obtain ⟨h1, h2⟩ := ih h
    refine ⟨by omega, ?_⟩
    intro e he
    rcases List.mem_cons.1 he with rfl | he
    · exact ⟨Nat.le_refl _, hn, h1⟩
    · have := h2 e he; omega

theorem Packed.disjoint {κ : Type} {a b : Nat} {l : List (κ × Nat × Nat)} (h : Packed a l b) {e e' : κ × Nat × Nat} (he : e ∈ l) (he' : e' ∈ l)
    (hne : e.1 ≠ e'.1) : e.2.1 + e.2.2 ≤ e'.2.1 ∨ e'.2.1 + e'.2.2 ≤ e.2.1 := by
  induction l generalizing a with
  | nil => cases he
  | cons x l ih =>
    obtain ⟨k, o, n⟩ := x
    obtain ⟨rfl, hn, h⟩ := h
    have hb := (Packed.bounds h).2
    rcases List.mem_cons.1 he with rfl | he <;> rcases List.mem_cons.1 he' with rfl | he'
    · exact absurd rfl hne
    · exact .inl (hb e' he').1
    · exact .inr (hb e he).1
    · exact ih h he he'

/-- the GOT slots at the end of a link -/
theorem GoodRun.gotSlots (h : GoodRun opts ops sched w w' file secs) : ∃ gs : List (SymbolRef × Nat × Nat), ∃ n,
    Packed 1 gs n ∧ (gs.map (·.1)).Nodup ∧ bodyNamed file b!".got" = List.replicate (8 * n) 0 ∧
    (∀ r, r ∈ gs.map (·.1) ↔ ∃ rel sr path, Op.reloc rel r sr path ∈ ops ∧ UsesGot rel) ∧
    (∀ r s, w'.symtab.get r = some s → s.inGot = (AMap.get? gs r).map fun e => e.1 * 8) ∧
    ∀ e ∈ gs, e.2.2 = slotsFor w.symtab (relocsOf w) e.1 := by
  obtain ⟨st, hst⟩ := h.run.stages
  obtain ⟨ks, gs, hI, _⟩ := st.scan h.run.hist
  obtain ⟨t, ht, htp, htn, htb⟩ := h.own_body st hst (p := P.got) (by simp)
  refine ⟨gs, st.scanned.gotLen, hI.packed, hI.gotNodup, ?_, ?_, ?_, hI.count⟩
  · refine ((sectionNamed_one htn).2.1).trans ?_
    rw [htb]; rfl
  · intro r
    rw [hI.users]
    constructor
    · rintro ⟨rel, hm, hu⟩
      obtain ⟨sr, path, hop⟩ := (h.run.hist.mem_relocsOf rel r).1 hm
      exact ⟨rel, sr, path, hop, hu⟩
    · rintro ⟨rel, sr, path, hop, hu⟩
      exact ⟨rel, (h.run.hist.mem_relocsOf rel r).2 ⟨sr, path, hop⟩, hu⟩
  · intro r s hs
    subst hst
    obtain ⟨s1, s2, h1, _, h3, _⟩ := st.final_slots h.run.valid h.run.hist hs
    rw [h3]; exact hI.inGot r s1 h1

/-- **GOT slots.** A symbol has a GOT slot exactly if a relocation refers to the GOT for it. Slots are aligned words inside `.got`, never the
first one, and different symbols have different slots. -/
theorem got_slots_distinct (h : GoodRun opts ops sched w w' file secs) {r : SymbolRef} {s : Symbol} (hs : w'.symtab.get r = some s) :
    (s.inGot.isSome = true ↔ ∃ rel sr path, Op.reloc rel r sr path ∈ ops ∧ UsesGot rel) ∧
    ∀ o, s.inGot = some o → o % 8 = 0 ∧ 8 ≤ o ∧ o + 8 ≤ (bodyNamed file b!".got").length ∧
      ∀ r' s' o', w'.symtab.get r' = some s' → s'.inGot = some o' → r' ≠ r → o' + 8 ≤ o ∨ o + 8 ≤ o' := by
  obtain ⟨gs, n, hp, hn, hb, hu, hg, _⟩ := h.gotSlots
  have key : ∀ {r s o}, w'.symtab.get r = some s → s.inGot = some o → ∃ e ∈ gs, e.1 = r ∧ o = e.2.1 * 8 := by
    intro r s o hs ho
    rw [hg r s hs, Option.map_eq_some_iff] at ho
    obtain ⟨e, he, ho⟩ := ho
    exact ⟨(r, e), AMap.mem_of_get? he, rfl, ho.symm⟩
  refine ⟨?_, ?_⟩
  · rw [hg r s hs, Option.isSome_map, ← hu]
    exact AMap.get?_isSome
  · intro o ho
    obtain ⟨e, he, her, rfl⟩ := key hs ho
    obtain ⟨b1, b2, b3⟩ := (Packed.bounds hp).2 e he
    refine ⟨by omega, by omega, ?_, ?_⟩
    · rw [hb, List.length_replicate]; omega
    · intro r' s' o' hs' ho' hne
      obtain ⟨e', he', her', rfl⟩ := key hs' ho'
      have := Packed.disjoint hp he he' (by rw [her, her']; exact fun e => hne e.symm)
      have b2' := ((Packed.bounds hp).2 e' he').2.1
      omega

/-- **GOT pairs of thread-local symbols, what holds.** If the first relocation of a thread-local symbol that refers to the GOT is a
`TLSGD` (19), the symbol owns two consecutive words of `.got`: no other symbol's slot overlaps them. What is missing: a symbol whose first
such relocation is of another type gets one word only (`C22_tlsgd_pair_violated`). -/
theorem C22_tlsgd_pair_partial (h : GoodRun opts ops sched w w' file secs) {r : SymbolRef} {s : Symbol} (hs : w'.symtab.get r = some s)
    (htls : s.sym.st_info % 16 = 6) {pre post : List (Rela × SymbolRef)} {rel : Rela} (hrel : relocsOf w = pre ++ (rel, r) :: post) (hty : relType rel = 19)
    (hpre : ∀ e ∈ pre, e.2 = r → ¬ UsesGot e.1) : ∃ o, s.inGot = some o ∧ o + 16 ≤ (bodyNamed file b!".got").length ∧
      ∀ r' s' o', w'.symtab.get r' = some s' → s'.inGot = some o' → r' ≠ r → o' + 8 ≤ o ∨ o + 16 ≤ o' := by
  obtain ⟨gs, n, hp, hn, hb, hu, hg, hc⟩ := h.gotSlots
  have hug : UsesGot rel := by unfold UsesGot; rw [hty]; decide
  have hmem : r ∈ gs.map (·.1) := by
    rw [hu]
    obtain ⟨sr, path, hop⟩ := (h.run.hist.mem_relocsOf rel r).1 (by rw [hrel]; simp)
    exact ⟨rel, sr, path, hop, hug⟩
  obtain ⟨e, he⟩ := Option.isSome_iff_exists.1 (AMap.get?_isSome.2 hmem)
  have hem := AMap.mem_of_get? he
  have h2 : e.2 = 2 := by
    have := hc _ hem
    simp only at this
    rw [this]
    unfold slotsFor
    rw [if_pos]
    refine ⟨?_, ?_⟩
    · have : (relocsOf w).find? (fun d => decide (d.2 = r ∧ UsesGot d.1)) = some (rel, r) := by
        rw [hrel, List.find?_append, List.find?_eq_none.2]
        · simp [hug]
        · intro x hx; simpa using hpre x hx
      unfold firstUse
      rw [this]; simp [hty]
    · obtain ⟨st, rfl⟩ := h.run.stages
      obtain ⟨s1, _, h1, _, _, _, _, _, _, _, _, _, _, hinfo⟩ := st.final_slots h.run.valid h.run.hist hs
      obtain ⟨s0, h0, hv⟩ := SymbolTable.view_get_some (scan_view unscan_blind st.hscan) h1
      have : s1.sym.st_info = s0.sym.st_info := congrArg (·.sym.st_info) hv
      exact ⟨s0, h0, by rw [← this, ← hinfo]; exact htls⟩
  obtain ⟨b1, b2, b3⟩ := (Packed.bounds hp).2 _ hem
  simp only at b1 b2 b3
  refine ⟨e.1 * 8, by rw [hg r s hs, he]; rfl, ?_, ?_⟩
  · rw [hb, List.length_replicate]; omega
  · intro r' s' o' hs' ho' hne
    rw [hg r' s' hs', Option.map_eq_some_iff] at ho'
    obtain ⟨e', he', rfl⟩ := ho'
    have hem' := AMap.mem_of_get? he'
    have := Packed.disjoint hp hem hem' (fun x => hne x.symm)
    have b2' := ((Packed.bounds hp).2 _ hem').2.1
    simp only at this b2'
    omega

/-! ### `.rela.dyn` -/

/-- the imports that own a GOT slot -/
def globs (ms : List Import) : List (Import × Nat) := ms.filterMap fun m => m.got.map fun o => (m, o)

theorem mem_globs {ms : List Import} {e : Import × Nat} : e ∈ globs ms ↔ e.1 ∈ ms ∧ e.1.got = some e.2 := by
  simp only [globs, List.mem_filterMap, Option.map_eq_some_iff]
  constructor
  · rintro ⟨m, hm, o, ho, rfl⟩; exact ⟨hm, ho⟩
  · rintro ⟨h1, h2⟩; exact ⟨e.1, h1, e.2, h2, rfl⟩

theorem sublist_globs (ms : List Import) : ((globs ms).map (·.1)).Sublist ms := by
  unfold globs
  induction ms with
  | nil => simp
  | cons m ms ih =>
    rw [List.filterMap_cons]
    cases m.got with
    | none => exact ih.cons _
    | some o => exact ih.cons_cons _

theorem sublist_copies (a : Nat) (ms : List Import) : ((copiesFrom a ms).map (·.1)).Sublist ms := by
  induction ms generalizing a with
  | nil => simp [copiesFrom]
  | cons m ms ih =>
    unfold copiesFrom
    cases m.copy with
    | none => exact (ih _).cons _
    | some o => exact (ih _).cons_cons _

theorem copies_copy {a : Nat} {ms : List Import} {e : Import × Nat × Nat} (h : e ∈ copiesFrom a ms) : e.1 ∈ ms ∧ e.1.copy = some e.2.2 := by
  induction ms generalizing a with
  | nil => cases h
  | cons m ms ih =>
    unfold copiesFrom at h
    cases hc : m.copy with
    | none => rw [hc] at h; have := ih h; exact ⟨.tail _ this.1, this.2⟩
    | some o =>
      rw [hc] at h
      rcases List.mem_cons.1 h with rfl | h
      · exact ⟨.head _, hc⟩
      · have := ih h; exact ⟨.tail _ this.1, this.2⟩

theorem copies_of {a : Nat} {ms : List Import} {m : Import} (h : m ∈ ms) {n : Nat} (hc : m.copy = some n) : ∃ o, (m, o, n) ∈ copiesFrom a ms := by
  induction ms generalizing a with
  | nil => cases h
  | cons m' ms ih =>
    unfold copiesFrom
    rcases List.mem_cons.1 h with rfl | h
    · rw [hc]; exact ⟨a, .head _⟩
    · cases m'.copy with
      | none => exact ih h
      | some o => obtain ⟨o', ho'⟩ := ih (a := a + o) h; exact ⟨o', .tail _ ho'⟩

theorem copies_bounds {a : Nat} {ms : List Import} : a ≤ copyEnd a ms ∧ ∀ e ∈ copiesFrom a ms, a ≤ e.2.1 ∧ e.2.1 + e.2.2 ≤ copyEnd a ms := by
  induction ms generalizing a with
  | nil => exact ⟨Nat.le_refl _, by simp [copiesFrom]⟩
  | cons m ms ih =>
    unfold copiesFrom copyEnd
    cases m.copy with
    | none => exact ih
    | some o =>
      obtain ⟨h1, h2⟩ := ih (a := a + o)
      simp only [Option.getD_some]
      refine ⟨by omega, ?_⟩
      intro e he
      rcases List.mem_cons.1 he with rfl | he
      · exact ⟨Nat.le_refl _, h1⟩
      · have := h2 e he; omega

theorem copies_disjoint {a : Nat} {ms : List Import} : (copiesFrom a ms).Pairwise fun e e' => e.2.1 + e.2.2 ≤ e'.2.1 := by
  induction ms generalizing a with
  | nil => simp [copiesFrom]
  | cons m ms ih =>
    unfold copiesFrom
    cases m.copy with
    | none => exact ih
    | some o =>
      rw [List.pairwise_cons]
      exact ⟨fun e he => (copies_bounds.2 e he).1, ih⟩

/-- the relocations of `.rela.dyn`, by type -/
theorem dynRels_filter (x y z a : Nat) (ms : List Import) :
    ((dynRelsFrom a ms).map fun r => (rebaseRela x y z r).toSpec).filter (fun r => r.type == 6) = (globs ms).map (fun e => ⟨x + e.2, e.1.index, 6, 0⟩) ∧
    ((dynRelsFrom a ms).map fun r => (rebaseRela x y z r).toSpec).filter (fun r => r.type == 5) =
      (copiesFrom a ms).map (fun e => ⟨z + e.2.1, e.1.index, 5, 0⟩) ∧
    ∀ r ∈ (dynRelsFrom a ms).map fun r => (rebaseRela x y z r).toSpec, r.type = 6 ∨ r.type = 5 := by
  have key6 : ∀ o i, (rebaseRela x y z (rela o i 6)).toSpec = ⟨x + o, i, 6, 0⟩ := by
    intro o i; rw [rebase_glob, rela_toSpec _ _ _ (by decide), Nat.add_comm]
  have key5 : ∀ o i, (rebaseRela x y z (rela o i 5)).toSpec = ⟨z + o, i, 5, 0⟩ := by
    intro o i; rw [rebase_copy, rela_toSpec _ _ _ (by decide), Nat.add_comm]
  induction ms generalizing a with
  | nil => simp [dynRelsFrom, globs, copiesFrom]
  | cons m ms ih =>
    obtain ⟨i1, i2, i3⟩ := ih (a + m.copy.getD 0)
    unfold dynRelsFrom copiesFrom
    have hg : globs (m :: ms) = (match m.got with | some o => [(m, o)] | none => []) ++ globs ms := by
      unfold globs; rw [List.filterMap_cons]; cases m.got <;> rfl
    rw [hg]
    simp only [List.map_append, List.filter_append, i1, i2, List.mem_append]
    refine ⟨?_, ?_, ?_⟩
    · cases m.got <;> cases m.copy <;> simp [key6, key5]
    · cases hc : m.copy <;> cases m.got <;> simp [key6, key5]
    · rintro r ((hr | hr) | hr)
      · cases hg : m.got <;> rw [hg] at hr <;> simp [key6] at hr
        exact .inl (by rw [hr])
      · cases hg : m.copy <;> rw [hg] at hr <;> simp [key5] at hr
        exact .inr (by rw [hr])
      · exact i3 r hr

/-- the relocations of `.rela.dyn` in the file and the imports they come from -/
theorem GoodLink.relaDyn (h : GoodLink opts ops sched w w' file secs) (st : Stages sched w) (hst : st.final = w') :
    (relasOf (bodyNamed file b!".rela.dyn")).filter (fun r => r.type == 6) =
      (globs st.imports).map (fun e => ⟨addrNamed file b!".got" + e.2, e.1.index, 6, 0⟩) ∧
    (relasOf (bodyNamed file b!".rela.dyn")).filter (fun r => r.type == 5) =
      (copiesFrom 0 st.imports).map (fun e => ⟨addrNamed file b!".copyrel" + e.2.1, e.1.index, 5, 0⟩) ∧
    ∀ r ∈ relasOf (bodyNamed file b!".rela.dyn"), r.type = 6 ∨ r.type = 5 := by
  have L := st.linkRels h.run.valid h.run.hist
  have base : ∀ p ∈ [P.plt, P.gotPlt, P.got, P.copyRel], p ∈ (baseIdents opts.hashStyle).map (·.1) := by
    cases opts.hashStyle <;> decide
  obtain ⟨g, hg, hgp, hgn⟩ := h.own (base P.gotPlt (by simp))
  obtain ⟨got, hgot, hgotp, hgotn⟩ := h.own (base P.got (by simp))
  obtain ⟨cr, hcr, hcrp, hcrn⟩ := h.own (base P.copyRel (by simp))
  obtain ⟨hR, _⟩ := h.run.final_rels h.good.flags st hst hgot hgotp hg hgp hcr hcrp
  obtain ⟨x1, x2, x3, x4, x5, relaDyn, X⟩ := h.tables
  obtain ⟨_, r1, _⟩ := sectionNamed_one X.mrelaDyn.2.2
  obtain ⟨_, _, g2⟩ := sectionNamed_one hgotn
  obtain ⟨_, _, c2⟩ := sectionNamed_one hcrn
  have g2 : addrNamed file b!".got" = got.sh.sh_addr := g2
  have c2 : addrNamed file b!".copyrel" = cr.sh.sh_addr := c2
  rw [r1, X.rels, hR, L.dynRels, List.map_map, g2, c2]
  exact dynRels_filter _ _ _ _ _

/-- the name of an import -/
def importName (w : Writer) (m : Import) : Name := refName w (.named m.key)

theorem GoodLink.importName_of (h : GoodLink opts ops sched w w' file secs) {st : Stages sched w} {ns nd : List Name} (T : TableFacts ns nd ops w)
    {m : Import} {n : Name} (F : ImportFacts ns nd ops st.toEarly m n) : importName w m = n := by
  unfold importName; rw [F.key]; exact h.refName_of T F.memS

/-- names of different imports are different -/
theorem GoodLink.importNames_nodup (h : GoodLink opts ops sched w w' file secs) (st : Stages sched w) : (st.imports.map (importName w)).Nodup := by
  obtain ⟨ns, nd, T⟩ := h.run.hist.tableFacts
  have := importKeys_nodup st.toEarly h.run.valid T
  unfold List.Nodup at this ⊢
  rw [List.pairwise_map] at this ⊢
  refine List.Pairwise.imp_of_mem ?_ this
  intro m m' hm hm' hne he
  obtain ⟨n, F⟩ := st.import_facts T h.named h.symNames hm
  obtain ⟨n', F'⟩ := st.import_facts T h.named h.symNames hm'
  rw [h.importName_of T F, h.importName_of T F'] at he
  subst he
  exact hne (F.key.trans F'.key.symm)

/-- every imported name has an import -/
theorem GoodLink.import_of (h : GoodLink opts ops sched w w' file secs) (st : Stages sched w) {ns nd : List Name} (T : TableFacts ns nd ops w) {n : Name}
    (hi : ImportedIn ops n) : ∃ m ∈ st.imports, ImportFacts ns nd ops st.toEarly m n := by
  have L := st.linkRels h.run.valid h.run.hist
  obtain ⟨s, hs, hd⟩ := h.imported_of T hi
  obtain ⟨d, hd⟩ := Option.isSome_iff_exists.1 hd
  obtain ⟨m, hm, hmk⟩ := L.all _ s d hs hd
  obtain ⟨n', F⟩ := st.import_facts T h.named h.symNames hm
  have hns : n ∈ ns := by
    obtain ⟨a, _, _, _, b, h1, s, sec, p, r, h2⟩ := hi
    exact (T.symNames n).2 (.inr (mem_symNames (ops := ops) (by rw [h1]; exact List.mem_append_left _ h2)))
  have : n' = n := u32_nameOff_inj T.symstr h.symstr F.memS hns (by rw [← F.key, hmk])
  subst this
  exact ⟨m, hm, F⟩

/-- **GOT slots of imported symbols.** The `GLOB_DAT` (6) relocations of `.rela.dyn` are exactly one for each symbol of a shared library
that some object refers to through the GOT: `globs` lists the names, the slots and the indices of the dynamic symbols. The entry of the
dynamic symbol table at that index has the name of the symbol, and the slot is the one that the relocations of the objects use. -/
theorem glob_dat_in_file (h : GoodLink opts ops sched w w' file secs) : ∃ globs : List (Name × Nat × Nat),
    (relasOf (bodyNamed file b!".rela.dyn")).filter (fun r => r.type == 6) = globs.map (fun e => ⟨addrNamed file b!".got" + e.2.1, e.2.2, 6, 0⟩) ∧
    (globs.map (·.1)).Nodup ∧
    (∀ n, n ∈ globs.map (·.1) ↔ ImportedIn ops n ∧ GotUsedIn ops n) ∧
    ∀ n o k, (n, o, k) ∈ globs → dynName file k = some n ∧ ∀ r s, Refers ops r n → w'.symtab.get r = some s → s.inGot = some o := by
  obtain ⟨st, hst⟩ := h.run.stages
  obtain ⟨ns, nd, T⟩ := h.run.hist.tableFacts
  obtain ⟨ks, gs, hI, _⟩ := st.scan h.run.hist
  obtain ⟨hR, _, _⟩ := h.relaDyn st hst
  have hn := h.importNames_nodup st
  have hslot : ∀ r s, st.scanned.symtab.get r = some s → (s.inGot.isSome ↔ ∃ rel sr path, Op.reloc rel r sr path ∈ ops ∧ UsesGot rel) := by
    intro r s hs
    rw [hI.inGot r s hs, Option.isSome_map, AMap.get?_isSome]
    refine (hI.users r).trans ?_
    constructor
    · rintro ⟨rel, hm, hu⟩
      obtain ⟨sr, path, hop⟩ := (h.run.hist.mem_relocsOf rel r).1 hm
      exact ⟨rel, sr, path, hop, hu⟩
    · rintro ⟨rel, sr, path, hop, hu⟩
      exact ⟨rel, (h.run.hist.mem_relocsOf rel r).2 ⟨sr, path, hop⟩, hu⟩
  refine ⟨(globs st.imports).map fun e => (importName w e.1, e.2, e.1.index), ?_, ?_, ?_, ?_⟩
  · rw [hR, List.map_map]; rfl
  · have h1 := hn.sublist ((sublist_globs st.imports).map (importName w))
    rw [List.map_map] at h1 ⊢
    exact h1
  · intro n
    simp only [List.map_map, List.mem_map, Function.comp_apply]
    constructor
    · rintro ⟨e, he, rfl⟩
      obtain ⟨hm, ho⟩ := mem_globs.1 he
      obtain ⟨n, F⟩ := st.import_facts T h.named h.symNames hm
      rw [h.importName_of T F]
      obtain ⟨s, hs, hg, _⟩ := F.scan
      obtain ⟨rel, sr, path, hop, hu⟩ := (hslot _ s hs).1 (by rw [← hg, ho]; rfl)
      refine ⟨F.imported, _, rel, sr, path, ?_, hop, hu⟩
      obtain ⟨n', hn', hk, _, href⟩ := h.imported_name T (by rw [F.key]; exact h.imported_of T F.imported : Imported w.symtab (.named e.1.key))
      have : n' = n := u32_nameOff_inj T.symstr h.symstr hn' F.memS (by rw [← F.key, SymbolRef.named.inj hk])
      exact this ▸ href
    · rintro ⟨hi, r, rel, sr, path, href, hop, hu⟩
      obtain ⟨m, hm, F⟩ := h.import_of st T hi
      obtain ⟨s, hs, hg, _⟩ := F.scan
      obtain ⟨hk, _⟩ := h.refers T href
      have := (hslot _ s hs).2 ⟨rel, sr, path, by rw [F.key, ← hk]; exact hop, hu⟩
      rw [← hg] at this
      obtain ⟨o, ho⟩ := Option.isSome_iff_exists.1 this
      exact ⟨(m, o), mem_globs.2 ⟨hm, ho⟩, h.importName_of T F⟩
  · intro n o k he
    obtain ⟨e, he', heq⟩ := List.mem_map.1 he
    simp only [Prod.mk.injEq] at heq
    obtain ⟨rfl, rfl, rfl⟩ := heq
    obtain ⟨hm, ho⟩ := mem_globs.1 he'
    obtain ⟨n, F⟩ := st.import_facts T h.named h.symNames hm
    rw [h.importName_of T F]
    obtain ⟨y, hy, _, hyn⟩ := F.entry h.run.valid h.run.hist T
    obtain ⟨op, path, hoff⟩ := F.offer
    refine ⟨h.dynName_of T (by rw [← hst]; exact hy) F.memD (h.symNames.dyn _ _ _ _ hoff) hyn, ?_⟩
    intro r s href hs
    obtain ⟨hk, _⟩ := h.refers T href
    subst hst
    obtain ⟨s1, s2, h1, _, h3, _⟩ := st.final_slots h.run.valid h.run.hist hs
    obtain ⟨s', hs', hg, _⟩ := F.scan
    rw [hk, ← F.key, hs'] at h1
    cases h1
    rw [h3, ← hg, ho]

/-! ### Copies of imported data -/

theorem SymbolTable.get_updateObjectSymbols (t : SymbolTable) (a i k : Nat) : (t.updateObjectSymbols a i).get (.named k) =
    (t.get (.named k)).map fun s => if s.isObject then { s with sym := { s.sym with st_value := s.sym.st_value + a, st_shndx := u16 i } } else s := by
  simp only [SymbolTable.get, SymbolTable.updateObjectSymbols]
  generalize t.symbols = l
  induction l with
  | nil => rfl
  | cons e l ih =>
    obtain ⟨k', s⟩ := e
    rw [List.map_cons]
    by_cases hk : k' = k
    · subst hk
      by_cases ho : s.isObject = true <;> simp [AMap.get?, ho]
    · by_cases ho : s.isObject = true <;> simp [AMap.get?, ho, hk] <;> exact ih

/-- the dynamic symbols that are data objects, at the end -/
theorem GoodLink.final_object (h : GoodLink opts ops sched w w' file secs) (st : Stages sched w) (hst : st.final = w') {k : Nat} {y : Symbol}
    (hy : w'.dynsym.get (.named k) = some y) (ho : y.sym.st_info % 16 = 1) : ∃ s, st.dynrel.dynsym.get (.named k) = some s ∧
      y.sym.st_value = addrNamed file b!".copyrel" + s.sym.st_value := by
  have base : P.copyRel ∈ (baseIdents opts.hashStyle).map (·.1) := by cases opts.hashStyle <;> decide
  obtain ⟨cr, hcr, hcrp, hcrn⟩ := h.own base
  obtain ⟨_, _, c2⟩ := sectionNamed_one hcrn
  have c2 : addrNamed file b!".copyrel" = cr.sh.sh_addr := c2
  obtain ⟨_, f2, _⟩ := st.final_tables
  obtain ⟨_, p2, _⟩ := st.patched_tables
  obtain ⟨_, _, q3, _, hpost⟩ := st.posts
  have hs := st.hspecial
  simp only [handleSpecialSymbols, bind_ok, Prod.exists] at hs
  obtain ⟨g, _, a, _, b, _, t, ss, h1, c, hc, h2⟩ := hs
  obtain ⟨mc, pc⟩ := sec_ok hc
  have hsec : ss.map post = st.final.sections.map post := by
    have := st.posts.2.2.2.1
    rw [← Except.ok.inj h2] at this
    exact this
  rw [hst] at hsec
  have ec := h.run.same_addr h.good.flags hsec mc hcr (by rw [hcrp, pc])
  rw [← hst, f2, ← Except.ok.inj h2] at hy
  simp only at hy
  rw [p2, SymbolTable.get_updateObjectSymbols, Option.map_eq_some_iff] at hy
  obtain ⟨s, hs, rfl⟩ := hy
  refine ⟨s, hs, ?_⟩
  have hob : s.isObject = true := by
    by_cases hob : s.isObject = true
    · exact hob
    · rw [if_neg hob] at ho
      exact absurd (by simpa [Symbol.isObject, stType, STT_OBJECT] using ho) hob
  rw [if_pos hob, c2, ← ec]
  exact Nat.add_comm _ _

theorem copies_unique {a : Nat} {ms : List Import} (hn : (ms.map (·.key)).Nodup) {e e' : Import × Nat × Nat} (he : e ∈ copiesFrom a ms)
    (he' : e' ∈ copiesFrom a ms) (hk : e.1.key = e'.1.key) : e.2.1 = e'.2.1 := by
  induction ms generalizing a with
  | nil => cases he
  | cons m ms ih =>
    rw [List.map_cons, List.nodup_cons] at hn
    unfold copiesFrom at he he'
    cases hc : m.copy with
    | none => rw [hc] at he he'; exact ih hn.2 he he'
    | some o =>
      rw [hc] at he he'
      rcases List.mem_cons.1 he with rfl | h1 <;> rcases List.mem_cons.1 he' with rfl | h2
      · rfl
      · exact absurd (List.mem_map.2 ⟨_, (copies_copy h2).1, hk.symm⟩) hn.1
      · exact absurd (List.mem_map.2 ⟨_, (copies_copy h1).1, hk⟩) hn.1
      · exact ih hn.2 h1 h2

/-- an entry of the dynamic symbol table of the file and the symbol it comes from -/
theorem GoodLink.dyn_entry (h : GoodLink opts ops sched w w' file secs) {ns nd : List Name} (T : TableFacts ns nd ops w) {k : Nat} {y : ESym} {n : Name}
    (hy : (symsOf (bodyNamed file b!".dynsym"))[k]? = some y) (hn : dynName file k = some n) (hne : n ≠ []) (hnd : n ∈ nd) :
    ∃ s, w'.dynsym.get (.named (u32 (nameOff nd n))) = some s ∧ s.sym.toSpec = y := by
  obtain ⟨st, hst⟩ := h.run.stages
  obtain ⟨a, b, c, d, e, f, X⟩ := h.tables
  obtain ⟨_, b1, _⟩ := sectionNamed_one X.mdynsym.2.2
  rw [b1, X.dyns, List.getElem?_map, Option.map_eq_some_iff] at hy
  obtain ⟨s, hs, rfl⟩ := hy
  have hview := (st.final_unplace.2.trans (st.linkRels h.run.valid h.run.hist).dyn)
  rw [hst] at hview
  obtain ⟨j, hj⟩ := (SymbolTable.mem_sorted h.run.valid.dynIter).1 (List.mem_of_getElem? hs)
  obtain ⟨z, hz, ez⟩ := SymbolTable.view_get_some hview (r := .named j) hj
  obtain ⟨n', hn', hj', hzn, _⟩ := T.dynNamed j z hz
  have hsn : s.sym.st_name = u32 (nameOff nd n') := (congrArg (·.sym.st_name) ez).trans (hzn.trans hj')
  have hclean : (0 : UInt8) ∉ n' := by
    rcases T.dynMention j z hz with h0 | ⟨e, n'', path, hop, hty⟩
    · have h1 : nameOff nd [] = 0 := nameOff_nil T.dynstr.head
      have hnil : [] ∈ nd := by
        have := T.dynstr.head
        cases nd with
        | nil => cases this
        | cons x l => simp only [List.head?_cons, Option.some.injEq] at this; rw [this]; exact .head _
      have : n' = [] := u32_nameOff_inj T.dynstr h.dynstr hn' hnil (by rw [← hj', h0, h1]; rfl)
      rw [this]; simp
    · have := (T.inv.dref _ _ _ _ hop).2 hty
      have : n' = n'' := u32_nameOff_inj T.dynstr h.dynstr hn' (T.dynMem _ (mem_dynNames hop)) (by rw [← hj', SymbolRef.named.inj this])
      rw [this]; exact h.symNames.dyn _ _ _ _ hop
  have := h.dynName_of T hs hn' hclean hsn
  rw [hn] at this
  cases this
  exact ⟨s, by rw [← hj']; exact hj, rfl⟩

/-- **Copies of imported data.** The `COPY` (5) relocations of `.rela.dyn` are exactly one for each data object (symbol type 1) of a shared
library that an object mentions: `copies` lists the names, the places in `.copyrel` and the entries of the dynamic symbol table, with
their indices. Each entry has the address of its place as value; the places hold the sizes of their objects, do not overlap, and end within
the size of `.copyrel` in the file. -/
theorem copies_in_file (h : GoodLink opts ops sched w w' file secs) : ∃ copies : List (Name × Nat × Nat × ESym),
    (relasOf (bodyNamed file b!".rela.dyn")).filter (fun r => r.type == 5) = copies.map (fun e => ⟨addrNamed file b!".copyrel" + e.2.1, e.2.2.1, 5, 0⟩) ∧
    (copies.map (·.1)).Nodup ∧
    (∀ n, n ∈ copies.map (·.1) ↔ ImportedIn ops n ∧
      ∃ k y, (symsOf (bodyNamed file b!".dynsym"))[k]? = some y ∧ dynName file k = some n ∧ y.info % 16 = 1) ∧
    copies.Pairwise (fun e e' => e.2.1 + e.2.2.2.size ≤ e'.2.1) ∧
    ∀ n o k y, (n, o, k, y) ∈ copies → (symsOf (bodyNamed file b!".dynsym"))[k]? = some y ∧ dynName file k = some n ∧
      y.value = addrNamed file b!".copyrel" + o ∧ ∃ s, sectionNamed file b!".copyrel" = some s ∧ o + y.size ≤ s.size := by
  obtain ⟨st, hst⟩ := h.run.stages
  obtain ⟨ns, nd, T⟩ := h.run.hist.tableFacts
  obtain ⟨_, hR, _⟩ := h.relaDyn st hst
  have L := st.linkRels h.run.valid h.run.hist
  have hn := h.importNames_nodup st
  have base : P.copyRel ∈ (baseIdents opts.hashStyle).map (·.1) := by cases opts.hashStyle <;> decide
  obtain ⟨cr, hcr, hcrp, hcrn⟩ := h.own base
  obtain ⟨c1, _, _⟩ := sectionNamed_one hcrn
  have hsize : cr.sh.toSpec.size = copyEnd 0 st.imports := by
    obtain ⟨i, hi⟩ := List.getElem?_of_mem hcr
    obtain ⟨s, hs, hfin, _⟩ := h.run.finalized hi
    have hk : cr.kind = .copyRel := (h.run.known h.good.flags hcr).copyRel_kind.2 hcrp
    have e1 : cr.sh.toSpec.size = cr.sh.sh_size := rfl
    rw [e1, hfin.sh]
    simp only
    rw [if_pos (by rw [← hfin.kind]; exact hk), ← L.size]
    obtain ⟨_, _, _, _, _, _, _, f8, _⟩ := st.final_tables
    rw [← hst, f8]
  obtain ⟨x1, x2, x3, x4, x5, x6, X⟩ := h.tables
  obtain ⟨_, b1, _⟩ := sectionNamed_one X.mdynsym.2.2
  have hview := (st.final_unplace.2.trans L.dyn)
  rw [hst] at hview
  -- the entry of an import
  let entryOf : Import → ESym := fun m => ((w'.dynsym.get m.ref).map (·.sym.toSpec)).getD ⟨0, 0, 0, 0, 0, 0⟩
  have hent : ∀ m ∈ st.imports, ∃ n y, ImportFacts ns nd ops st.toEarly m n ∧ entryOf m = y.sym.toSpec ∧ w'.dynsym.get m.ref = some y ∧
      (symsOf (bodyNamed file b!".dynsym"))[m.index]? = some y.sym.toSpec ∧ dynName file m.index = some n ∧
      m.copy = if y.sym.st_info % 16 = 1 then some y.sym.st_size else none := by
    intro m hm
    obtain ⟨n, F⟩ := st.import_facts T h.named h.symNames hm
    obtain ⟨y, hy, hget, hyn⟩ := F.entry h.run.valid h.run.hist T
    rw [hst] at hy hget
    obtain ⟨op, path, hoff⟩ := F.offer
    refine ⟨n, y, F, ?_, hget, ?_, h.dynName_of T hy F.memD (h.symNames.dyn _ _ _ _ hoff) hyn, ?_⟩
    · simp only [entryOf, hget]; rfl
    · rw [b1, X.dyns, List.getElem?_map, hy]; rfl
    · obtain ⟨x, hx, hc⟩ := F.dyn
      obtain ⟨x', hx', e⟩ := SymbolTable.view_get_some hview hget
      rw [hx] at hx'
      cases hx'
      have e1 : y.sym.st_info = x.sym.st_info := congrArg (·.sym.st_info) e
      have e2 : y.sym.st_size = x.sym.st_size := congrArg (·.sym.st_size) e
      rw [hc, e1, e2]
      by_cases ho : x.sym.st_info % 16 = 1 <;> simp [Symbol.isObject, stType, STT_OBJECT, ho]
  have hcopy : ∀ e ∈ copiesFrom 0 st.imports, (entryOf e.1).size = e.2.2 := by
    intro e he
    obtain ⟨hm, hc⟩ := copies_copy he
    obtain ⟨n, y, _, hE, _, _, _, hcc⟩ := hent e.1 hm
    rw [hE]
    rw [hc] at hcc
    split at hcc
    · exact (Option.some.inj hcc).symm
    · cases hcc
  refine ⟨(copiesFrom 0 st.imports).map fun e => (importName w e.1, e.2.1, e.1.index, entryOf e.1), ?_, ?_, ?_, ?_, ?_⟩
  · rw [hR, List.map_map]; rfl
  · have h1 := hn.sublist ((sublist_copies 0 st.imports).map (importName w))
    rw [List.map_map] at h1 ⊢
    exact h1
  · intro n
    simp only [List.map_map, List.mem_map, Function.comp_apply]
    constructor
    · rintro ⟨e, he, rfl⟩
      obtain ⟨hm, hc⟩ := copies_copy he
      obtain ⟨n, y, F, _, _, h1, h2, hcc⟩ := hent e.1 hm
      rw [h.importName_of T F]
      refine ⟨F.imported, e.1.index, y.sym.toSpec, h1, h2, ?_⟩
      rw [hc] at hcc
      by_cases ho : y.sym.st_info % 16 = 1
      · exact ho
      · rw [if_neg ho] at hcc; cases hcc
    · rintro ⟨hi, k, y, hk, hkn, hinfo⟩
      obtain ⟨m, hm, F⟩ := h.import_of st T hi
      obtain ⟨op, path, hoff⟩ := F.offer
      obtain ⟨s, hs, rfl⟩ := h.dyn_entry T hk hkn (h.symNames.nonempty _ _ _ _ hoff) F.memD
      obtain ⟨n', y, F', _, hget, _, _, hcc⟩ := hent m hm
      rw [F.ref, hs] at hget
      cases hget
      rw [if_pos (by exact hinfo)] at hcc
      obtain ⟨o, ho⟩ := copies_of (a := 0) hm hcc
      exact ⟨_, ho, h.importName_of T F⟩
  · rw [List.pairwise_map]
    refine List.Pairwise.imp_of_mem ?_ (copies_disjoint (a := 0) (ms := st.imports))
    intro e e' he _ hd
    simp only [hcopy e he]; exact hd
  · intro n o k y he
    obtain ⟨e, he', heq⟩ := List.mem_map.1 he
    simp only [Prod.mk.injEq] at heq
    obtain ⟨rfl, rfl, rfl, rfl⟩ := heq
    obtain ⟨hm, hc⟩ := copies_copy he'
    obtain ⟨n, y, F, hE, hget, h1, h2, hcc⟩ := hent e.1 hm
    refine ⟨by rw [hE]; exact h1, by rw [h.importName_of T F]; exact h2, ?_, cr.sh.toSpec, c1, ?_⟩
    · rw [hE]
      have ho : y.sym.st_info % 16 = 1 := by
        rw [hc] at hcc
        by_cases ho : y.sym.st_info % 16 = 1
        · exact ho
        · rw [if_neg ho] at hcc; cases hcc
      rw [F.ref] at hget
      obtain ⟨s, hs, hv⟩ := h.final_object st hst hget ho
      refine hv.trans ?_
      congr 1
      rcases L.value _ s hs with ⟨e', he'', hr, hv⟩ | ⟨hno, _⟩
      · rw [hv]
        obtain ⟨hm', _⟩ := copies_copy he''
        obtain ⟨n', F'⟩ := st.import_facts T h.named h.symNames hm'
        rw [F'.ref] at hr
        have : n' = n := u32_nameOff_inj T.dynstr h.dynstr F'.memD F.memD (SymbolRef.named.inj hr)
        subst this
        exact copies_unique (importKeys_nodup st.toEarly h.run.valid T) he'' he' (F'.key.trans F.key.symm)
      · exact absurd F.ref (hno e he')
    · rw [hcopy e he', hsize]
      exact (copies_bounds.2 e he').2

/-! ### The GOT at run time -/

/-- **The GOT slot of a symbol of the executable.** For every link: the slot of a symbol that no library provides holds zero, and no
`GLOB_DAT` relocation fills it. What is missing is C26 itself: the slot should hold the address. -/
theorem C26_local_slot_partial (h : GoodLink opts ops sched w w' file secs) {r : SymbolRef} {s : Symbol} {o : Nat} (hs : w'.symtab.get r = some s)
    (ho : s.inGot = some o) (hl : ¬ Imported w.symtab r) : field (bodyNamed file b!".got") o 8 = 0 ∧
      ∀ rel ∈ relasOf (bodyNamed file b!".rela.dyn"), rel.type = 6 → rel.offset ≠ addrNamed file b!".got" + o := by
  obtain ⟨gs, n, hp, hn, hb, hu, hg, _⟩ := h.gotSlots
  obtain ⟨_, hd⟩ := got_slots_distinct h.toGoodRun hs
  obtain ⟨h1, h2, h3, h4⟩ := hd o ho
  refine ⟨?_, ?_⟩
  · rw [hb]
    unfold field slice
    rw [List.drop_replicate, List.take_replicate]
    generalize min 8 (8 * n - o) = k
    induction k with
    | zero => rfl
    | succ k ih => rw [List.replicate_succ, fromLe, ih]; rfl
  · intro rel hrel hty heq
    obtain ⟨globs, hf, hgn, hgm, hge⟩ := glob_dat_in_file h
    have : rel ∈ (relasOf (bodyNamed file b!".rela.dyn")).filter (fun r => r.type == 6) := List.mem_filter.2 ⟨hrel, by simp [hty]⟩
    rw [hf, List.mem_map] at this
    obtain ⟨⟨n, o', k⟩, he, rfl⟩ := this
    simp only at heq
    have heq : o' = o := by omega
    subst heq
    obtain ⟨hi, _⟩ := (hgm n).1 (List.mem_map.2 ⟨_, he, rfl⟩)
    obtain ⟨ns, nd, T⟩ := h.run.hist.tableFacts
    obtain ⟨n', hn', hk, _, href⟩ := h.imported_name T (h.imported_of T hi)
    have hnn : n' = n := by
      obtain ⟨a, _, _, _, b, e1, s', sec, p, r', e2⟩ := hi
      exact (u32_nameOff_inj T.symstr h.symstr
        ((T.symNames n).2 (.inr (mem_symNames (ops := ops) (by rw [e1]; exact List.mem_append_left _ e2)))) hn' (SymbolRef.named.inj hk)).symm
    subst hnn
    have himp := h.imported_of T hi
    obtain ⟨s0, hs0, _⟩ := himp
    have hex : ∃ s', w'.symtab.get (.named (u32 (nameOff ns n'))) = some s' := by
      obtain ⟨st, rfl⟩ := h.run.stages
      have hv : st.final.symtab.view (fun _ => ()) = w.symtab.view (fun _ => ()) := by
        obtain ⟨f1, _⟩ := st.final_view (F := fun _ => ()) ⟨fun _ _ _ _ => ⟨rfl, rfl⟩, fun _ _ => rfl, fun _ _ _ => rfl⟩
        exact f1
      obtain ⟨s', hs', _⟩ := SymbolTable.view_get_some hv.symm hs0
      exact ⟨s', hs'⟩
    obtain ⟨s', hs'⟩ := hex
    have := (hge _ _ _ he).2 _ s' href hs'
    rcases h4 _ s' o' hs' this (by intro e; rw [← e] at hl; exact hl (h.imported_of T hi)) with h5 | h5 <;> omega

/-! ### The scan -/

theorem scanChunk_ok {t0 : SymbolTable} {done : List (Rela × SymbolRef)} {ks : List SymbolRef} {gs : List (SymbolRef × Nat × Nat)} {st st' : ScanState} {c c' : Chunk}
    (hI : ScanInv t0 done ks gs st) (h : scanChunk st c = .ok (st', c')) :
    ∃ done' ks' gs', ScanInv t0 done' ks' gs' st' ∧ c' = { c with relocations := c.relocations.map (scanned t0) } := by
  simp only [scanChunk, bind_ok, Prod.exists] at h
  obtain ⟨st1, l, h1, h2⟩ := h
  obtain ⟨ks', gs', h3, rfl⟩ := hI.all h1
  cases h2
  exact ⟨_, ks', gs', h3, rfl⟩

theorem mapAccumM_inv {ε σ α β : Type} {f : σ → α → Except ε (σ × β)} {I : σ → Prop} {g : α → β}
    (hstep : ∀ s a s' b, I s → f s a = .ok (s', b) → I s' ∧ b = g a) {l : List α} {s s' : σ} {bs : List β} (hs : I s)
    (h : mapAccumM f s l = .ok (s', bs)) : I s' ∧ bs = l.map g := by
  induction l generalizing s bs with
  | nil => cases h; exact ⟨hs, rfl⟩
  | cons a l ih =>
    simp only [mapAccumM] at h
    split at h
    · cases h
    next s1 b h1 =>
    split at h
    · cases h
    next s2 bs' h2 =>
    cases h
    obtain ⟨i1, rfl⟩ := hstep _ _ _ _ hs h1
    obtain ⟨i2, rfl⟩ := ih i1 h2
    exact ⟨i2, rfl⟩

/-- a relocation after the scan -/
def Spec.scannedReloc (t : SymbolTable) (e : Rela × SymbolRef) : Rela × SymbolRef :=
  if UsesPlt e.1 ∧ ¬ Imported t e.2 then ({ e.1 with r_info := e.1.r_info / 2 ^ 32 * 2 ^ 32 + 2 }, e.2) else e

theorem scanned_eq (t : SymbolTable) (e : Rela × SymbolRef) : scanned t e = Spec.scannedReloc t e := by
  unfold scanned Spec.scannedReloc
  split
  · next h =>
    have : e.1.r_info % 2 ^ 32 = 4 := h.1
    have : e.1.r_info - 4 + 2 = e.1.r_info / 2 ^ 32 * 2 ^ 32 + 2 := by omega
    rw [this]
  · rfl

/-- **What the scan does to relocations.** It turns a PLT32 (4) relocation against a symbol no shared library provides into a PC32 (2)
relocation for the same place, symbol and addend. Everything else in the sections stays as it is. -/
theorem scan_only_redirects_calls (hh : Hist opts ops w) (h : w.scanRelocations = .ok w') :
    w'.sections = w.sections.map fun s => { s with chunks := s.chunks.map fun c => { c with relocations := c.relocations.map (Spec.scannedReloc w.symtab) } } := by
  simp only [scanRelocations, bind_ok, Prod.exists] at h
  obtain ⟨st, ss, h1, h2⟩ := h
  cases h2
  simp only
  have hu := hh.untouched
  obtain ⟨ns, nd, T⟩ := hh.tableFacts
  have hI : ScanInv w.symtab [] [] [] { symtab := w.symtab, plt := w.plt, gotPlt := w.gotPlt, gotLen := w.gotLen } :=
    ScanInv.init (st := { symtab := w.symtab, plt := w.plt, gotPlt := w.gotPlt, gotLen := w.gotLen }) hu.plt hu.gotPlt hu.gotLen
      fun r s hs => ⟨(T.blank r s hs).1, (T.blank r s hs).2.1, (T.blank r s hs).2.2.1⟩
  have hsc : scanned w.symtab = Spec.scannedReloc w.symtab := funext (scanned_eq _)
  rw [← hsc]
  refine (mapAccumM_inv (I := fun st => ∃ done ks gs, ScanInv w.symtab done ks gs st) ?_ ⟨[], [], [], hI⟩ h1).2
  intro st s st' s' hst hs
  simp only [scanSection, bind_ok, Prod.exists] at hs
  obtain ⟨st1, cs, h3, h4⟩ := hs
  cases h4
  obtain ⟨i, rfl⟩ := mapAccumM_inv (I := fun st => ∃ done ks gs, ScanInv w.symtab done ks gs st)
    (g := fun c : Chunk => { c with relocations := c.relocations.map (scanned w.symtab) }) (by
      rintro st c st' c' ⟨done, ks, gs, hI⟩ hc
      obtain ⟨done', ks', gs', a, b⟩ := scanChunk_ok hI hc
      exact ⟨⟨done', ks', gs', a⟩, b⟩) hst h3
  exact ⟨i, rfl⟩


/-! ### Concrete links -/

/-- Code that calls a library function through the PLT and loads the address of a library variable from the GOT. -/
def importOps : List Op :=
  [ .push [] {} (some []) ⟨0, 0⟩,
    .push b!".text" (demoSh SHT_PROGBITS 6 24 16) (some (List.replicate 8 0x90 ++ [0x48, 0x8b, 0x05, 0, 0, 0, 0] ++ List.replicate 9 0x90)) ⟨16, 0⟩,
    .sym (demoSym STT_FUNC 1 0 12) (some ⟨16, 0⟩) b!"_start" demoPath (.named 1),
    .sym (demoSym 0 0 0 0) (some ⟨0, 0⟩) b!"puts" demoPath (.named 8),
    .sym (demoSym 0 0 0 0) (some ⟨0, 0⟩) b!"environ" demoPath (.named 13),
    .sym (demoSym 0 0 0 0) (some ⟨0, 0⟩) b!"stdout" demoPath (.named 21),
    .reloc { r_offset := 1, r_info := 8 * 2 ^ 32 + R_X86_64_PLT32, r_addend := -4 } (.named 8) ⟨16, 0⟩ demoPath,
    .reloc { r_offset := 11, r_info := 8 * 2 ^ 32 + R_X86_64_REX_GOTPCRELX, r_addend := -4 } (.named 13) ⟨16, 0⟩ demoPath,
    .reloc { r_offset := 16, r_info := 8 * 2 ^ 32 + R_X86_64_PLT32, r_addend := -4 } (.named 1) ⟨16, 0⟩ demoPath,
    .dynsym (demoSym STT_FUNC 12 0x1234 10) b!"puts" demoPath (.named 22),
    .dynsym (demoSym STT_OBJECT 13 0x5678 8) b!"environ" demoPath (.named 27),
    .dynsym (demoSym STT_OBJECT 13 0x6678 4) b!"stdout" demoPath (.named 35),
    .needed b!"libc.so.6" ]

/-- Two thread-local variables: the first used with GOTTPOFF, then with TLSGD; the second with GOTTPOFF. -/
def tlsOps : List Op :=
  [ .push [] {} (some []) ⟨0, 0⟩,
    .push b!".text" (demoSh SHT_PROGBITS 6 16 16) (some (List.replicate 16 0x90)) ⟨16, 0⟩,
    .push b!".tdata" (demoSh SHT_PROGBITS 0x403 8 8) (some [1, 2, 3, 4, 5, 6, 7, 8]) ⟨17, 0⟩,
    .sym (demoSym STT_FUNC 1 0 12) (some ⟨16, 0⟩) b!"_start" demoPath (.named 1),
    .sym (demoSym 6 2 0 4) (some ⟨17, 0⟩) b!"x" demoPath (.named 8),
    .sym (demoSym 6 2 4 4) (some ⟨17, 0⟩) b!"y" demoPath (.named 10),
    .reloc { r_offset := 0, r_info := 5 * 2 ^ 32 + R_X86_64_GOTTPOFF, r_addend := -4 } (.named 8) ⟨16, 0⟩ demoPath,
    .reloc { r_offset := 4, r_info := 5 * 2 ^ 32 + R_X86_64_TLSGD, r_addend := -4 } (.named 8) ⟨16, 0⟩ demoPath,
    .reloc { r_offset := 8, r_info := 6 * 2 ^ 32 + R_X86_64_GOTTPOFF, r_addend := -4 } (.named 10) ⟨16, 0⟩ demoPath ]

theorem import_good : goodOps importOps = true ∧ cleanSyms importOps = true := by decide +kernel
theorem tls_good : goodOps tlsOps = true ∧ cleanSyms tlsOps = true := by decide +kernel

/-- `plt_in_file`, `glob_dat_in_file`, `copies_in_file`: one function called through the PLT, one variable loaded through the GOT, two
variables copied -/
example : ∃ w w' f s, GoodLink Options.default importOps Sched.rev w w' f s ∧
    ((bodyNamed f b!".plt").length == 32 && (relasOf (bodyNamed f b!".rela.plt")).length == 1 &&
      ((relasOf (bodyNamed f b!".rela.dyn")).filter fun r => r.type == 6).length == 1 &&
      ((relasOf (bodyNamed f b!".rela.dyn")).filter fun r => r.type == 5).length == 2) = true :=
  GoodLink.of_runs Sched.rev_valid import_good.1 import_good.2 (by decide +kernel)

/-- the demo link meets the hypotheses as well -/
example : ∃ w w' f s, GoodLink Options.default demoOps Sched.id w w' f s ∧ ((bodyNamed f b!".plt").length == 32) = true :=
  GoodLink.of_runs Sched.id_valid demo_good demo_clean (by decide +kernel)

/-- `scan_only_redirects_calls`: of the two PLT32 relocations one is redirected -/
example : ∃ w w', Hist Options.default importOps w ∧ w.scanRelocations = .ok w' ∧
    (relocsOf w).map (fun e => relType e.1) = [4, 42, 4] ∧ (relocsOf w').map (fun e => relType e.1) = [4, 42, 2] := by
  have h : (match runOps Options.default importOps with
    | .ok w => match w.scanRelocations with
      | .ok w' => decide ((relocsOf w).map (fun e => relType e.1) = [4, 42, 4] ∧ (relocsOf w').map (fun e => relType e.1) = [4, 42, 2])
      | .error _ => false
    | .error _ => false) = true := by decide +kernel
  split at h
  · next w hw =>
    split at h
    · next w' hw' => exact ⟨w, w', Hist.of_run hw, hw', of_decide_eq_true h⟩
    · cases h
  · cases h

/-- `C22_tlsgd_pair_partial`: the hypotheses are met when TLSGD comes first -/
example : ∃ w w' f s, GoodLink Options.default (tlsOps.take 6 ++ tlsOps.drop 7) Sched.id w w' f s ∧
    (decide ((w'.symtab.get (.named 8)).map (fun s => (s.sym.st_info % 16, s.inGot)) = some (6, some 8) ∧
      (relocsOf w).map (fun e => (relType e.1, e.2)) = [(19, .named 8), (22, .named 10)] ∧
      (w'.symtab.get (.named 10)).map (·.inGot) = some (some 24))) = true :=
  GoodLink.of_runs Sched.id_valid (by decide +kernel) (by decide +kernel) (by decide +kernel)

/-- **C22 is violated.** The variable `x` is thread-local and used by a TLSGD relocation; its slot is word 1 of the GOT, and word 2, the
second half of the pair, is the slot of `y`. -/
theorem C22_tlsgd_pair_violated : ∃ w w' f s, GoodLink Options.default tlsOps Sched.id w w' f s ∧
    ∃ x y rel sr path, Op.reloc rel (.named 8) sr path ∈ tlsOps ∧ relType rel = 19 ∧
      w'.symtab.get (.named 8) = some x ∧ x.sym.st_info % 16 = 6 ∧ x.inGot = some 8 ∧
      w'.symtab.get (.named 10) = some y ∧ y.inGot = some (8 + 8) := by
  obtain ⟨w, w', f, s, hg, h⟩ := GoodLink.of_runs (opts := .default) (sched := Sched.id) (ops := tlsOps)
    (P := fun _ w' _ _ => decide ((w'.symtab.get (.named 8)).map (fun s => (s.sym.st_info % 16, s.inGot)) = some (6, some 8) ∧
      (w'.symtab.get (.named 10)).map (·.inGot) = some (some 16))) Sched.id_valid tls_good.1 tls_good.2 (by decide +kernel)
  refine ⟨w, w', f, s, hg, ?_⟩
  have h := of_decide_eq_true h
  simp only [Option.map_eq_some_iff, Prod.mk.injEq] at h
  obtain ⟨⟨x, hx, h1, h2⟩, y, hy, h3⟩ := h
  exact ⟨x, y, { r_offset := 4, r_info := 5 * 2 ^ 32 + R_X86_64_TLSGD, r_addend := -4 }, ⟨16, 0⟩, demoPath, by simp [tlsOps], by decide, hx, h1, h2, hy, h3⟩

/-- **C26 is violated.** The variable `y` is defined in the executable and read through the GOT; its slot holds zero, no relocation of the
file fills the slot, and `y` is at a non-zero address. -/
theorem C26_local_got_slot_violated : ∃ w w' f s, GoodLink Options.default tlsOps Sched.id w w' f s ∧
    ∃ y o, w'.symtab.get (.named 10) = some y ∧ y.inGot = some o ∧ y.dynamic = none ∧ y.sym.st_value ≠ 0 ∧
      field (bodyNamed f b!".got") o 8 = 0 ∧ relasOf (bodyNamed f b!".rela.dyn") = [] ∧ relasOf (bodyNamed f b!".rela.plt") = [] := by
  obtain ⟨w, w', f, s, hg, h⟩ := GoodLink.of_runs (opts := .default) (sched := Sched.id) (ops := tlsOps)
    (P := fun _ w' f _ => decide ((w'.symtab.get (.named 10)).map (fun s => (s.inGot, s.dynamic, s.sym.st_value)) = some (some 16, none, 2109444) ∧
      field (bodyNamed f b!".got") 16 8 = 0 ∧ relasOf (bodyNamed f b!".rela.dyn") = [] ∧ relasOf (bodyNamed f b!".rela.plt") = []))
    Sched.id_valid tls_good.1 tls_good.2 (by decide +kernel)
  refine ⟨w, w', f, s, hg, ?_⟩
  have h := of_decide_eq_true h
  simp only [Option.map_eq_some_iff, Prod.mk.injEq] at h
  obtain ⟨⟨y, hy, h1, h2, h3⟩, h4, h5, h6⟩ := h
  exact ⟨y, 16, hy, h1, h2, by rw [h3]; decide, h4, h5, h6⟩

end Dld
