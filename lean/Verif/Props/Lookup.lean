import Verif.Spec.Lookup
import Verif.Props.HashTables
import Verif.Props.Names
import Verif.Props.Refs
/-! # Looking up dynamic symbols in the output (C94, C95) -/
namespace Dld
open Writer Spec StringTable
variable {opts : Options} {ops : List Op} {sched : Sched} {w w' : Writer} {file : Bytes} {secs : List Section}

/-- the bodies of the hash tables -/
theorem GoodRun.hash_body (h : GoodRun opts ops sched w w' file secs) (st : Stages sched w) (hst : st.final = w') {p : Nat}
    (hp : p = P.hash ∨ p = P.gnuHash) (hb : p ∈ (baseIdents opts.hashStyle).map (·.1)) :
    bodyNamed file (ptrName p) = ownBytes st p := by
  have hx : p < P.first ∧ p ≠ P.null ∧ p ≠ P.interp ∧ p ≠ P.plt ∧ p ≠ P.gotPlt := by
    rcases hp with rfl | rfl <;> decide
  obtain ⟨t, ht, htp, hn⟩ := h.own hb
  obtain ⟨_, b1, _⟩ := sectionNamed_one hn
  rw [b1, (h.run.reads h.good h.names h.fit).body t ht]
  subst htp
  exact h.run.own_bytes h.good.clean st hst ht hx.1 hx.2.1 hx.2.2.1 hx.2.2.2.1 hx.2.2.2.2

/-- the dynamic symbol table of the file against the entries the hash tables are built from -/
structure DynTable (ops : List Op) (file : Bytes) (l : List Symbol) : Prop where
  length : l.length = (symsOf (bodyNamed file b!".dynsym")).length
  first : dynName file 0 = some []
  hashes : ∀ k n, n ≠ [] → dynName file k = some n → ∃ x, l[k]? = some x ∧ x.hash = elfHash n ∧ x.gnuHash = elfGnuHash n
  named : ∀ k x, l[k]? = some x → k ≠ 0 → ∃ n, n ≠ [] ∧ dynName file k = some n
  offered : ∀ n, n ≠ [] → ((∃ k, dynName file k = some n) ↔ Offered ops n)

theorem GoodLink.dynTable (h : GoodLink opts ops sched w w' file secs) (hp : ProperDyns ops) :
    DynTable ops file (w.dynsym.sorted sched.dynIter) := by
  obtain ⟨ns, nd, T⟩ := h.run.hist.tableFacts
  obtain ⟨a, b, c, d, e, f, X⟩ := h.tables
  obtain ⟨_, b1, _⟩ := sectionNamed_one X.mdynsym.2.2
  obtain ⟨_, d1, _⟩ := sectionNamed_one X.mdynstr.2.2
  obtain ⟨st, rfl⟩ := h.run.stages
  have hview := st.final_unplace.2.trans (st.linkRels h.run.valid h.run.hist).dyn
  have hm := SymbolTable.sorted_view (F := unplace) (le' := SymbolTable.sortLe) (fun _ _ => rfl) sched.dynIter hview
  have hnil : ([] : Name) ∈ nd := List.mem_of_mem_head? T.dynstr.head
  have hoff0 : ∀ {n}, n ∈ nd → n ≠ [] → u32 (nameOff nd n) ≠ 0 := by
    intro n hn hne h0
    refine hne (u32_nameOff_inj T.dynstr h.dynstr hn hnil ?_)
    rw [h0, nameOff_nil T.dynstr.head]; rfl
  have hnull : (w.dynsym.sorted sched.dynIter)[0]? = some SymbolTable.nullSymbol := by
    refine C14_null_first_when_no_locals true _ _ T.inv.dyn _ (h.run.valid.dynIter _) ?_
    intro x hx
    obtain ⟨s, n, path, r, hop, rfl⟩ := mem_dynAdds hx
    obtain ⟨hn, hb⟩ := hp _ _ _ _ hop
    refine ⟨?_, (h.named s n path r hop : stType s.st_info ≠ STT_SECTION), ?_, hoff0 (T.dynMem n (mem_dynNames hop)) hn⟩
    · exact hb.elim (fun e => .inr (.inl e)) (fun e => .inr (.inr e))
    · show ¬ s.st_info / 16 = 0
      omega
  have entry : ∀ {k n}, dynName file k = some n → ∃ x, (st.final.dynsym.sorted sched.dynIter)[k]? = some x ∧ ∃ j,
      st.final.dynsym.get (.named j) = some x ∧ n ∈ nd ∧ j = u32 (nameOff nd n) := by
    intro k n hk
    unfold dynName at hk
    rw [b1, X.dyns, List.getElem?_map, d1, X.dynstrs, Option.bind_eq_some_iff] at hk
    obtain ⟨s, hs, hc⟩ := hk
    obtain ⟨x, hx, rfl⟩ := Option.map_eq_some_iff.1 hs
    obtain ⟨j, hj⟩ := (SymbolTable.mem_sorted h.run.valid.dynIter).1 (List.mem_of_getElem? hx)
    obtain ⟨e1, m, hm', e2, hz⟩ := h.dyn_final_name T hj
    have hc' : cstrAt w.dynstr.chunk x.sym.st_name = some n := hc
    rw [e1, e2, u32_nameOff T.dynstr h.dynstr hm', Holds.cstr T.dynstr hm' hz] at hc'
    cases hc'
    exact ⟨x, hx, j, hj, hm', e2⟩
  have hfirst : dynName file 0 = some [] := by
    obtain ⟨y, hy, _, hyn⟩ := st.final_dynsym h.run.valid h.run.hist T hnull
    refine h.dynName_of T hy hnil (by simp) ?_
    rw [hyn, nameOff_nil T.dynstr.head]; rfl
  refine ⟨?_, hfirst, ?_, ?_, ?_⟩
  · rw [b1, X.dyns, List.length_map]
    have := congrArg List.length hm
    simpa using this.symm
  · intro k n hne hk
    obtain ⟨x, hx, j, hj, hm', e2⟩ := entry hk
    obtain ⟨y, hy, ey⟩ := getElem?_of_map hm hx
    obtain ⟨z, hz', ez⟩ := SymbolTable.view_get_some hview (r := .named j) hj
    obtain ⟨n', hn', h1, _, h2⟩ := T.dynNamed j z hz'
    have : n' = n := u32_nameOff_inj T.dynstr h.dynstr hn' hm' (by rw [← h1, e2])
    subst this
    refine ⟨y, hy, ?_, ?_⟩
    · have e3 : y.hash = z.hash := (congrArg (·.hash) ey).symm.trans (congrArg (·.hash) ez)
      rw [e3, (h2 hne).1]
    · have e3 : y.gnuHash = z.gnuHash := (congrArg (·.gnuHash) ey).symm.trans (congrArg (·.gnuHash) ez)
      rw [e3, (h2 hne).2]
  · intro k x hx hk0
    obtain ⟨j, hj⟩ := (SymbolTable.mem_sorted h.run.valid.dynIter).1 (List.mem_of_getElem? hx)
    obtain ⟨y, hy, hyg, hyn⟩ := st.final_dynsym h.run.valid h.run.hist T hx
    obtain ⟨e1, n, hnm, e2, hz⟩ := h.dyn_final_name T hyg
    have hd := h.dynName_of T hy hnm hz (by rw [e1, e2])
    refine ⟨n, ?_, hd⟩
    rintro rfl
    exact hk0 (h.dynName_inj hd hfirst)
  · intro n hne
    constructor
    · rintro ⟨k, hk⟩
      obtain ⟨x, hx, j, hj, hm', e2⟩ := entry hk
      obtain ⟨z, hz', ez⟩ := SymbolTable.view_get_some hview (r := .named j) hj
      rcases T.dynMention j z hz' with h0 | ⟨e', n', path, hop, h3⟩
      · exact absurd (e2.symm.trans h0) (hoff0 hm' hne)
      · have h4 := SymbolRef.named.inj ((T.inv.dref _ _ _ _ hop).2 h3)
        have : n' = n := u32_nameOff_inj T.dynstr h.dynstr (T.dynMem n' (mem_dynNames hop)) hm' (by rw [← h4, e2])
        subst this
        exact ⟨e', path, _, hop⟩
    · rintro ⟨s, path, r, hop⟩
      obtain ⟨h1, h2⟩ := T.inv.dref _ _ _ _ hop
      obtain rfl := h2 (h.named _ _ _ _ hop)
      obtain ⟨z, hz⟩ := Option.isSome_iff_exists.1 h1
      obtain ⟨k, hk⟩ := List.getElem?_of_mem ((SymbolTable.mem_sorted h.run.valid.dynIter).2 ⟨_, hz⟩)
      obtain ⟨y, hy, _, hyn⟩ := st.final_dynsym h.run.valid h.run.hist T hk
      obtain ⟨_, _, _, hzk, _⟩ := T.dynNamed _ z hz
      exact ⟨k, h.dynName_of T hy (T.dynMem n (mem_dynNames hop)) (h.symNames.dyn _ _ _ _ hop) (by rw [hyn, hzk])⟩

/-- the hash tables are built from the dynamic symbols in the order of the file -/
theorem Writer.Early.hash_tables (st : Early sched w) :
    HashTable.addSymbols ((w.dynsym.sorted sched.dynIter).map (·.hash)) = some st.filled.hashTab ∧
    GnuHashTable.addSymbols ((w.dynsym.sorted sched.dynIter).map (·.gnuHash)) = some st.filled.gnuTab := by
  have hf := st.hfill
  simp only [fillHashes, bind_ok] at hf
  obtain ⟨t, h1, g, h2, h3⟩ := hf
  have hd : (expandDynsym sched (resizeGotPlt (resizeGot st.scanned))).dynsym = w.dynsym := st.scanned_dynsym
  rw [hd] at h1 h2
  rw [← Except.ok.inj h3]
  exact ⟨unwrap_ok.1 h1, unwrap_ok.1 h2⟩

/-- `.hash` of the file -/
theorem GoodLink.sysv_body (h : GoodLink opts ops sched w w' file secs) (hs : opts.hashStyle ≠ .gnu) :
    ∃ t, HashTable.addSymbols ((w.dynsym.sorted sched.dynIter).map (·.hash)) = some t ∧ bodyNamed file b!".hash" = serHashTable t := by
  obtain ⟨st, hst⟩ := h.run.stages
  exact ⟨_, st.hash_tables.1, h.hash_body st hst (p := P.hash) (.inl rfl) (by revert hs; cases opts.hashStyle <;> decide)⟩

/-- `.gnu.hash` of the file -/
theorem GoodLink.gnu_body (h : GoodLink opts ops sched w w' file secs) (hs : opts.hashStyle ≠ .sysv) :
    ∃ t, GnuHashTable.addSymbols ((w.dynsym.sorted sched.dynIter).map (·.gnuHash)) = some t ∧ bodyNamed file b!".gnu.hash" = serGnuHashTable t := by
  obtain ⟨st, hst⟩ := h.run.stages
  exact ⟨_, st.hash_tables.2, h.hash_body st hst (p := P.gnuHash) (.inr rfl) (by revert hs; cases opts.hashStyle <;> decide)⟩

theorem find?_eq_of_unique {p : Nat → Bool} {l : List Nat} {k : Nat} (hk : k ∈ l) (hp : p k = true) (hu : ∀ j, p j = true → j = k) :
    l.find? p = some k := by
  cases hf : l.find? p with
  | none => exact absurd hp (by simpa using List.find?_eq_none.1 hf k hk)
  | some j => rw [hu j (List.find?_some hf)]

/-- **C94** Looking up a name with `.hash` the way the dynamic loader does - over the bytes of the file - ends for every name, and finds the entry
of the dynamic symbol table with that name if there is one; there is one exactly for the symbols that libraries offered for the link. -/
theorem C94_sysv_find (h : GoodLink opts ops sched w w' file secs) (hs : opts.hashStyle ≠ .gnu) (hp : ProperDyns ops)
    (hl : (symsOf (bodyNamed file b!".dynsym")).length < 2 ^ 32) {n : Name} (hn : n ≠ []) :
    (sysvVisited (bodyNamed file b!".hash") (sysvHash n)).isSome = true ∧
    (∀ k, sysvFind file n = some k ↔ dynName file k = some n) ∧
    ((sysvFind file n).isSome = true ↔ Offered ops n) := by
  have D := h.dynTable hp
  obtain ⟨t, h1, h2⟩ := h.sysv_body hs
  obtain ⟨t', h3, h4, h5⟩ := C16_sysv_lookup ((w.dynsym.sorted sched.dynIter).map (·.hash)) (by rw [List.length_map, D.length]; exact hl)
  rw [h1] at h3; cases h3
  have key : ∀ k, sysvFind file n = some k ↔ dynName file k = some n := by
    intro k
    constructor
    · intro hf
      unfold sysvFind at hf
      obtain ⟨L, _, hf⟩ := Option.bind_eq_some_iff.1 hf
      simpa using List.find?_some hf
    · intro hk
      obtain ⟨x, hx, e1, _⟩ := D.hashes k n hn hk
      have hk0 : k ≠ 0 := by
        rintro rfl
        rw [D.first] at hk; exact hn (Option.some.inj hk).symm
      obtain ⟨L, hL, hm⟩ := h5 k x.hash hk0 (by rw [List.getElem?_map, hx]; rfl)
      rw [e1, (C01_elf_hash_is_gabi n).1] at hL
      unfold sysvFind
      rw [h2, hL]
      exact find?_eq_of_unique hm (by simp [hk]) fun j hj => h.dynName_inj (by simpa using hj) hk
  refine ⟨?_, key, ?_⟩
  · obtain ⟨L, hL, _⟩ := h4 (sysvHash n)
    rw [h2, hL]; rfl
  · rw [← D.offered n hn, Option.isSome_iff_exists]
    exact exists_congr key

/-- the symbols of each bucket of `.gnu.hash` follow each other in the dynamic symbol table -/
def BucketsTogether (file : Bytes) : Prop :=
  ∀ (i j k : Nat) (x y z : Name), 0 < i → i < j → j < k → dynName file i = some x → dynName file j = some y → dynName file k = some z →
    gnuHash x % field (bodyNamed file b!".gnu.hash") 0 4 = gnuHash z % field (bodyNamed file b!".gnu.hash") 0 4 →
    gnuHash y % field (bodyNamed file b!".gnu.hash") 0 4 = gnuHash z % field (bodyNamed file b!".gnu.hash") 0 4

/-- **C95, what holds.** Looking up a name with `.gnu.hash` over the bytes of the file ends for every name and never finds a symbol with another
name. It finds the entry of the dynamic symbol table with that name if there are fewer than eight entries, or if the symbols of each bucket
follow each other. What is missing: links where they do not (`C95_gnu_find_violated`). -/
theorem C95_gnu_find_partial (h : GoodLink opts ops sched w w' file secs) (hs : opts.hashStyle ≠ .sysv) (hp : ProperDyns ops)
    (hl : (symsOf (bodyNamed file b!".dynsym")).length < 2 ^ 28) {n : Name} (hn : n ≠ []) :
    (gnuCandidates (bodyNamed file b!".gnu.hash") (gnuHash n)).isSome = true ∧
    (∀ k, gnuFind file n = some k → dynName file k = some n) ∧
    (BucketsTogether file ∨ (symsOf (bodyNamed file b!".dynsym")).length < 8 →
      (∀ k, gnuFind file n = some k ↔ dynName file k = some n) ∧ ((gnuFind file n).isSome = true ↔ Offered ops n)) := by
  have D := h.dynTable hp
  obtain ⟨t, h1, h2⟩ := h.gnu_body hs
  cases hc : w.dynsym.sorted sched.dynIter with
  | nil =>
    exfalso
    have h0 := D.first
    have := D.length
    rw [hc] at this
    unfold dynName at h0
    rw [List.getElem?_eq_none (by rw [← this]; simp)] at h0
    cases h0
  | cons z l =>
    rw [hc] at h1 D
    have hlen := D.length
    simp only [List.length_cons] at hlen
    obtain ⟨t', h3, h4, h5⟩ := C17_gnu_lookup_partial z.gnuHash (l.map (·.gnuHash)) (by rw [List.length_map]; omega)
    rw [List.map_cons, h3] at h1; cases h1
    have ofHash : ∀ i x, l[i]? = some x → ∃ m, m ≠ [] ∧ dynName file (i + 1) = some m ∧ x.gnuHash.toNat = gnuHash m := by
      intro i x hx
      obtain ⟨m, hm, hd⟩ := D.named (i + 1) x (by simpa using hx) (by omega)
      obtain ⟨y, hy, _, e⟩ := D.hashes _ _ hm hd
      rw [List.getElem?_cons_succ, hx] at hy; cases hy
      exact ⟨m, hm, hd, by rw [e]; exact C02_gnu_hash_is_polynomial m⟩
    have sound : ∀ k, gnuFind file n = some k → dynName file k = some n := by
      intro k hf
      unfold gnuFind at hf
      obtain ⟨L, _, hf⟩ := Option.bind_eq_some_iff.1 hf
      simpa using List.find?_some hf
    refine ⟨?_, sound, ?_⟩
    · obtain ⟨L, hL, _⟩ := h4 (gnuHash n)
      rw [h2, hL]; rfl
    · intro hcond
      have key : ∀ k, gnuFind file n = some k ↔ dynName file k = some n := by
        refine fun k => ⟨sound k, fun hk => ?_⟩
        obtain ⟨x, hx, _, e1⟩ := D.hashes k n hn hk
        have hk0 : k ≠ 0 := by
          rintro rfl
          rw [D.first] at hk; exact hn (Option.some.inj hk).symm
        obtain ⟨L, hL, hm⟩ := h5 (by
          rcases hcond with hb | hb
          · left
            intro i j q a b c hij hjq ha hb' hc' hmod
            rw [List.getElem?_map, Option.map_eq_some_iff] at ha hb' hc'
            obtain ⟨a, ha, rfl⟩ := ha
            obtain ⟨b, hb', rfl⟩ := hb'
            obtain ⟨c, hc', rfl⟩ := hc'
            obtain ⟨m1, _, d1, e1⟩ := ofHash i a ha
            obtain ⟨m2, _, d2, e2⟩ := ofHash j b hb'
            obtain ⟨m3, _, d3, e3⟩ := ofHash q c hc'
            rw [e1, e3] at hmod
            rw [e2, e3]
            have := hb (i + 1) (j + 1) (q + 1) m1 m2 m3 (by omega) (by omega) (by omega) d1 d2 d3
            rw [h2] at this
            exact this hmod
          · right
            simp only [List.length_cons, List.length_map]; omega) k x.gnuHash hk0 (by
              show (List.map (fun s : Symbol => s.gnuHash) (z :: l))[k]? = _
              rw [List.getElem?_map, hx]; rfl)
        rw [e1, C02_gnu_hash_is_polynomial n] at hL
        unfold gnuFind
        rw [h2, hL]
        exact find?_eq_of_unique hm (by simp [hk]) fun j hj => h.dynName_inj (by simpa using hj) hk
      exact ⟨key, by rw [← D.offered n hn, Option.isSome_iff_exists]; exact exists_congr key⟩

/-! ### Examples -/

/-- Seven variables `a` .. `g` of a library, each used directly. -/
def sevenOps : List Op :=
  [ .push [] {} (some []) ⟨0, 0⟩,
    .push b!".text" (demoSh SHT_PROGBITS 6 16 16) (some (List.replicate 16 0x90)) ⟨16, 0⟩,
    .sym (demoSym STT_FUNC 1 0 12) (some ⟨16, 0⟩) b!"_start" demoPath (.named 1),
    .sym (demoSym 0 0 0 0) (some ⟨0, 0⟩) b!"a" demoPath (.named 8),
    .sym (demoSym 0 0 0 0) (some ⟨0, 0⟩) b!"b" demoPath (.named 10),
    .sym (demoSym 0 0 0 0) (some ⟨0, 0⟩) b!"c" demoPath (.named 12),
    .sym (demoSym 0 0 0 0) (some ⟨0, 0⟩) b!"d" demoPath (.named 14),
    .sym (demoSym 0 0 0 0) (some ⟨0, 0⟩) b!"e" demoPath (.named 16),
    .sym (demoSym 0 0 0 0) (some ⟨0, 0⟩) b!"f" demoPath (.named 18),
    .sym (demoSym 0 0 0 0) (some ⟨0, 0⟩) b!"g" demoPath (.named 20),
    .reloc { r_offset := 4, r_info := 4 * 2 ^ 32 + R_X86_64_PC32, r_addend := -4 } (.named 12) ⟨16, 0⟩ demoPath,
    .dynsym (demoSym STT_OBJECT 13 0x5678 8) b!"a" demoPath (.named 22),
    .dynsym (demoSym STT_OBJECT 13 0x5688 8) b!"b" demoPath (.named 24),
    .dynsym (demoSym STT_OBJECT 13 0x5698 8) b!"c" demoPath (.named 26),
    .dynsym (demoSym STT_OBJECT 13 0x56a8 8) b!"d" demoPath (.named 28),
    .dynsym (demoSym STT_OBJECT 13 0x56b8 8) b!"e" demoPath (.named 30),
    .dynsym (demoSym STT_OBJECT 13 0x56c8 8) b!"f" demoPath (.named 32),
    .dynsym (demoSym STT_OBJECT 13 0x56d8 8) b!"g" demoPath (.named 34),
    .needed b!"libc.so.6" ]

theorem seven_proper : ProperDyns sevenOps := by
  intro s n path r h
  simp [sevenOps, demoSym] at h
  rcases h with h | h | h | h | h | h | h <;> obtain ⟨rfl, rfl, -⟩ := h <;> decide

/-- `C94_sysv_find`: the hypotheses are met, and `c` is found -/
example : ∃ w w' f s, GoodLink Options.default sevenOps Sched.rev w w' f s ∧
    ((symsOf (bodyNamed f b!".dynsym")).length == 8 && sysvFind f b!"c" == some 3) = true :=
  GoodLink.of_runs Sched.rev_valid (by decide +kernel) (by decide +kernel) (by decide +kernel)

/-- `C95_gnu_find_partial`: with four entries the hypotheses are met, and all are found -/
example : ∃ w w' f s, GoodLink Options.default importOps Sched.rev w w' f s ∧ ((symsOf (bodyNamed f b!".dynsym")).length == 4 &&
    (gnuFind f b!"puts" == some 1 || gnuFind f b!"puts" == some 2 || gnuFind f b!"puts" == some 3) &&
    (gnuFind f b!"environ").isSome && (gnuFind f b!"stdout").isSome && gnuFind f b!"exit" == none) = true :=
  GoodLink.of_runs Sched.rev_valid import_good.1 import_good.2 (by decide +kernel)

/-- **C95 is violated**: the variable `c` of a library is copied into the executable; it is entry 3 of the dynamic symbol table and defined there,
so that the library should use the copy. The loader does not find it with `.gnu.hash`. -/
theorem C95_gnu_find_violated : ∃ w w' f s e, GoodLink Options.default sevenOps Sched.rev w w' f s ∧ ProperDyns sevenOps ∧
    Offered sevenOps b!"c" ∧ dynName f 3 = some b!"c" ∧ (symsOf (bodyNamed f b!".dynsym"))[3]? = some e ∧ e.shndx ≠ 0 ∧
    (∃ r ∈ relasOf (bodyNamed f b!".rela.dyn"), r.type = 5 ∧ r.sym = 3 ∧ r.offset = e.value) ∧ gnuFind f b!"c" = none := by
  obtain ⟨w, w', f, s, hg, h⟩ := GoodLink.of_runs (opts := .default) (sched := Sched.rev) (ops := sevenOps)
    (P := fun w w' f s => dynName f 3 == some b!"c" && (gnuFind f b!"c").isNone &&
      ((symsOf (bodyNamed f b!".dynsym"))[3]?).any fun (e : ESym) => decide (e.shndx ≠ 0) &&
        (relasOf (bodyNamed f b!".rela.dyn")).any fun (r : ERela) => r.type == 5 && r.sym == 3 && r.offset == e.value)
    Sched.rev_valid (by decide +kernel) (by decide +kernel) (by decide +kernel)
  simp only [Bool.and_eq_true, beq_iff_eq, Option.isNone_iff_eq_none, Option.any_eq_true, decide_eq_true_eq, List.any_eq_true] at h
  obtain ⟨⟨h1, h2⟩, e, he, h3, r, hr, ⟨h4, h5⟩, h6⟩ := h
  exact ⟨w, w', f, s, e, hg, seven_proper, ⟨_, _, _, by simp [sevenOps]; exact ⟨rfl, rfl, rfl⟩⟩, h1, he, h3, ⟨r, hr, h4, h5, h6⟩, h2⟩

end Dld
