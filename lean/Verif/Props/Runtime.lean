import Verif.Lemmas.Runtime
import Verif.Lemmas.DynPlace
import Verif.Lemmas.Weight
import Verif.Props.Loader
import Verif.Props.Lookup
/-! # C99-C102: starting the program -/
namespace Dld
open Spec Writer
variable {opts : Options} {ops : List Op} {sched : Sched} {w w' : Writer} {file : Bytes} {secs : List Section}

/-- a process finds the contents of a section at its address -/
theorem GoodRun.section_mem (G : GoodRun opts ops sched w w' file secs) (Z : ZeroFillLast file) {o : EShdr} (ho : o ∈ shdrs file)
    (ha : o.allocated = true) (hb : o.type ≠ 8) :
    readMem (memAt file) o.addr o.size = some (bodyOf file o) := by
  obtain ⟨i, hi⟩ := List.getElem?_of_mem ho
  exact readMem_memory (C85_contents_partial G i o hi ha hb fun j t hj ht hf hn => Z j i t o hj ht hi hf hn hb)

/-- a process finds the contents of the linker's own sections at their addresses -/
theorem GoodRun.own_mem (G : GoodRun opts ops sched w w' file secs) (Z : ZeroFillLast file) {p : Nat} (hp : p ∈ (baseIdents opts.hashStyle).map (·.1))
    (hlt : p < P.first) (hf : (ownOrigin p).2.2.2.2.1.testBit 1 = true) (ht : (ownOrigin p).2.2.2.1 ≠ 8) :
    ∃ e ∈ shdrs file, sectionsNamed file (ptrName p) = [e] ∧ e.size = (bodyNamed file (ptrName p)).length ∧
      e.addr = addrNamed file (ptrName p) ∧ readMem (memAt file) e.addr e.size = some (bodyNamed file (ptrName p)) := by
  obtain ⟨t, hts, htp, htn⟩ := G.own hp
  obtain ⟨_, b, a⟩ := sectionNamed_one htn
  have hm : t.sh.toSpec ∈ shdrs file := by
    have : t.sh.toSpec ∈ sectionsNamed file (ptrName p) := by rw [htn]; exact .head _
    exact (List.mem_filter.1 this).1
  obtain ⟨h1, h2⟩ := G.own_header hts (by rw [htp]; exact hlt)
  rw [htp] at h1 h2
  have hr := G.section_mem Z hm (by show t.sh.sh_flags.testBit 1 = true; rw [h2]; exact hf) (by show t.sh.sh_type ≠ 8; rw [h1]; exact ht)
  rw [← b] at hr
  exact ⟨_, hm, htn, (readMem_iff.1 hr).1.symm, a.symm, hr⟩

theorem dynTag_of {file : Bytes} {es : List (Nat × Nat)} {t v : Nat} (hd : dynTable file = some es) (h : es.filter (fun e => e.1 == t) = [(t, v)]) :
    dynTag file t = some v := by
  unfold dynTag
  rw [hd]
  have : es.find? (fun e => e.1 == t) = some (t, v) := by rw [← List.head?_filter, h]; rfl
  simp [this]

theorem GoodRun.loader_tables (G : GoodRun opts ops sched w w' file secs) (hpt : PlainTypes ops) (Z : ZeroFillLast file) : LoaderTables file := by
  have base : ∀ p ∈ [P.dynamic, P.dynsym, P.dynstr, P.relaDyn, P.relaPlt], p ∈ (baseIdents opts.hashStyle).map (·.1) := by
    cases opts.hashStyle <;> decide
  obtain ⟨d, hd, dn, ds, da, dm⟩ := G.own_mem Z (base P.dynamic (by simp)) (by decide) (by decide) (by decide)
  obtain ⟨y, hy, yn, ys, ya, ym⟩ := G.own_mem Z (base P.dynsym (by simp)) (by decide) (by decide) (by decide)
  obtain ⟨s, hs, sn, ss, sa, sm⟩ := G.own_mem Z (base P.dynstr (by simp)) (by decide) (by decide) (by decide)
  obtain ⟨r, hr, rn, rs, ra, rm⟩ := G.own_mem Z (base P.relaDyn (by simp)) (by decide) (by decide) (by decide)
  obtain ⟨l, hl, ln, ls, la, lm⟩ := G.own_mem Z (base P.relaPlt (by simp)) (by decide) (by decide) (by decide)
  have dn : sectionsNamed file b!".dynamic" = [d] := dn
  have yn : sectionsNamed file b!".dynsym" = [y] := yn
  have sn : sectionsNamed file b!".dynstr" = [s] := sn
  have rn : sectionsNamed file b!".rela.dyn" = [r] := rn
  have ln : sectionsNamed file b!".rela.plt" = [l] := ln
  obtain ⟨i, hi⟩ := List.getElem?_of_mem hd
  have hn : Spec.nameOf file d = some b!".dynamic" := by
    have : d ∈ sectionsNamed file b!".dynamic" := by rw [dn]; exact .head _
    exact eq_of_beq (List.mem_filter.1 this).2
  have hnb : d.type ≠ 8 := by
    obtain ⟨d', hd', ht, _⟩ := C51_dynamic G hpt
    rw [dn] at hd'
    cases hd'
    rw [ht]; decide
  obtain ⟨p, hp, hmem⟩ := C87_dynamic_partial G i d hi hn fun j t hj ht hf hn' => Z j i t d hj ht hi hf hn' hnb
  obtain ⟨d', hd', _, _, _, ⟨es, hes, hz⟩, htags, _⟩ := C51_dynamic G hpt
  rw [dn] at hd'
  cases hd'
  have hb := (sectionNamed_one dn).2.1
  rw [← hb] at hes htags
  have htab : dynTable file = some es := by
    unfold dynTable
    rw [hp]
    simp only [List.head?_cons, Option.bind_eq_bind, Option.bind_some, readMem_memory hmem, hes, Option.some.injEq]
    rw [List.takeWhile_append_of_pos (by simpa using hz)]
    simp
  have tag : ∀ (t : Nat) (n : Name) (f : EShdr → Nat) (e : EShdr), (t, n, f) ∈ sectionTags → t ≠ 0 → sectionsNamed file n = [e] → dynTag file t = some (f e) := by
    intro t n f e hx h0 hn
    have := htags _ hx
    rw [hes, hn] at this
    refine dynTag_of htab ?_
    simpa [List.filter_append, Ne.symm h0] using this
  have t2 := tag 2 b!".rela.plt" (·.size) l (by simp [sectionTags]) (by decide) ln
  have t5 := tag 5 b!".dynstr" (·.addr) s (by simp [sectionTags]) (by decide) sn
  have t6 := tag 6 b!".dynsym" (·.addr) y (by simp [sectionTags]) (by decide) yn
  have t7 := tag 7 b!".rela.dyn" (·.addr) r (by simp [sectionTags]) (by decide) rn
  have t8 := tag 8 b!".rela.dyn" (·.size) r (by simp [sectionTags]) (by decide) rn
  have t10 := tag 10 b!".dynstr" (·.size) s (by simp [sectionTags]) (by decide) sn
  have t23 := tag 23 b!".rela.plt" (·.addr) l (by simp [sectionTags]) (by decide) ln
  refine ⟨?_, ?_, ?_⟩
  · unfold loadedRelas
    rw [t7, t8]
    simp only [Option.bind_eq_bind, Option.bind_some, rm]
    rfl
  · unfold loadedRelas
    rw [t23, t2]
    simp only [Option.bind_eq_bind, Option.bind_some, lm]
    rfl
  · intro k e n hk hkn
    have hlt : 24 * (k + 1) ≤ (bodyNamed file b!".dynsym").length := by
      have := (List.getElem?_eq_some_iff.1 hk).1
      simp only [symsOf, List.length_map, List.length_range] at this
      omega
    have ys : y.size = (bodyNamed file b!".dynsym").length := ys
    have hk0 := hk
    unfold symsOf at hk
    rw [List.getElem?_map, List.getElem?_range (by omega)] at hk
    have hk := Option.some.inj hk
    have hsub := readMem_sub ym (i := 24 * k) (k := 24) (by omega)
    unfold dynName at hkn
    rw [hk0] at hkn
    simp only [Option.bind_some] at hkn
    unfold loadedSym
    have sm : readMem (memAt file) s.addr s.size = some (bodyNamed file b!".dynstr") := sm
    simp only [t6, t5, t10, Option.bind_eq_bind, Option.bind_some, hsub, sm]
    have e1 : decodeSym (slice (bodyNamed file (ptrName P.dynsym)) (24 * k) 24) 0 = e := by
      rw [← hk]
      show decodeSym (slice (bodyNamed file b!".dynsym") (24 * k) 24) 0 = decodeSym (bodyNamed file b!".dynsym") (24 * k)
      have hf : ∀ o n, o + n ≤ 24 → field (slice (bodyNamed file b!".dynsym") (24 * k) 24) o n = field (bodyNamed file b!".dynsym") (24 * k + o) n := by
        intro o n ho
        refine field_congr fun j hj => ?_
        simp only [slice, List.getElem?_take, List.getElem?_drop]
        rw [if_pos (by omega)]
        congr 1; omega
      unfold decodeSym
      simp only [Nat.zero_add]
      rw [hf 0 4 (by omega), hf 4 1 (by omega), hf 5 1 (by omega), hf 6 2 (by omega), hf 8 8 (by omega), hf 16 8 (by omega)]
      rfl
    rw [e1, hkn]
    rfl

/-! ### The relocations of the output -/

/-- every relocation of `.rela.plt` belongs to an entry of `.plt` -/
theorem GoodLink.plt_rel (h : GoodLink opts ops sched w w' file secs) {j : Nat} {r : ERela} (hr : (relasOf (bodyNamed file b!".rela.plt"))[j]? = some r) :
    ∃ i k n, PltSlot file i j k n ∧ 8 * (i + 4) ≤ (bodyNamed file b!".got.plt").length ∧ ImportedIn ops n := by
  obtain ⟨names, _, hin, _, hg, _, hl, _, hs⟩ := plt_in_file h
  have hex : ∀ i, i < names.length → ∃ j k n, PltSlot file i j k n ∧ ImportedIn ops n := fun i hi => by
    obtain ⟨⟨j, k, hp⟩, _⟩ := hs i names[i] (List.getElem?_eq_getElem hi)
    exact ⟨j, k, _, hp, ((hin _).1 (List.getElem_mem hi)).1⟩
  let f : Nat → Nat := fun i => if hi : i < names.length then Classical.choose (hex i hi) else 0
  have hf : ∀ i, i < names.length → ∃ k n, PltSlot file i (f i) k n ∧ ImportedIn ops n := fun i hi => by
    have := Classical.choose_spec (hex i hi)
    simp only [f, dif_pos hi]
    exact this
  have hjl : ∀ {i j k n}, PltSlot file i j k n → j < names.length := fun hp => by
    rw [← hl]; exact (List.getElem?_eq_some_iff.1 hp.rel).1
  by_cases hm : j ∈ (List.range names.length).map f
  · obtain ⟨i, hi, rfl⟩ := List.mem_map.1 hm
    have hi := List.mem_range.1 hi
    obtain ⟨k, n, hp⟩ := hf i hi
    exact ⟨i, k, n, hp.1, by rw [hg]; omega, hp.2⟩
  · exfalso
    have hnd : ((List.range names.length).map f).Nodup := by
      unfold List.Nodup
      rw [List.pairwise_map]
      refine List.Pairwise.imp_of_mem ?_ (List.nodup_range (n := names.length))
      intro a b ha hb hne he
      obtain ⟨k, n, hp⟩ := hf a (List.mem_range.1 ha)
      obtain ⟨k', n', hp'⟩ := hf b (List.mem_range.1 hb)
      have h1 := hp.1.rel
      rw [he, hp'.1.rel] at h1
      have h2 := congrArg ERela.offset (Option.some.inj h1)
      simp only at h2
      omega
    have := length_le_of_subset (m := List.range names.length) (l := j :: (List.range names.length).map f) (List.nodup_cons.2 ⟨hm, hnd⟩) (by
      intro a ha
      rcases List.mem_cons.1 ha with rfl | ha
      · rw [List.mem_range, ← hl]; exact (List.getElem?_eq_some_iff.1 hr).1
      · obtain ⟨i, hi, rfl⟩ := List.mem_map.1 ha
        obtain ⟨k, n, hp⟩ := hf i (List.mem_range.1 hi)
        exact List.mem_range.2 (hjl hp.1))
    simp only [List.length_cons, List.length_map, List.length_range] at this
    omega

/-- entries of `.plt` with different relocations are different -/
theorem PltSlot.inj {i j j' k k' : Nat} {n n' : Name} (h : PltSlot file i j k n) (h' : PltSlot file i j' k' n') : j = j' := by
  have := h.push.symm.trans h'.push
  simp only [Option.some.injEq, Prod.mk.injEq, Instr.push.injEq, and_true] at this
  omega

/-- the words of different `GLOB_DAT` relocations are different -/
theorem GoodLink.glob_apart (h : GoodLink opts ops sched w w' file secs) : ∃ globs : List (Name × Nat × Nat),
    (relasOf (bodyNamed file b!".rela.dyn")).filter (fun r => r.type == 6) = globs.map (fun e => ⟨addrNamed file b!".got" + e.2.1, e.2.2, 6, 0⟩) ∧
    (∀ n, n ∈ globs.map (·.1) ↔ ImportedIn ops n ∧ GotUsedIn ops n) ∧
    globs.Pairwise (fun e e' => e.2.1 + 8 ≤ e'.2.1 ∨ e'.2.1 + 8 ≤ e.2.1) ∧
    ∀ n o k, (n, o, k) ∈ globs → dynName file k = some n ∧ o + 8 ≤ (bodyNamed file b!".got").length ∧
      ∀ r s, Refers ops r n → w'.symtab.get r = some s → s.inGot = some o := by
  obtain ⟨globs, h1, h2, h3, h4⟩ := glob_dat_in_file h
  have href : ∀ e ∈ globs, ∃ r s, Refers ops r e.1 ∧ w'.symtab.get r = some s ∧ s.inGot = some e.2.1 := by
    intro e he
    obtain ⟨_, r, _, _, _, hr, _⟩ := (h3 e.1).1 (List.mem_map.2 ⟨e, he, rfl⟩)
    obtain ⟨s, hs⟩ := h.refers_final hr
    exact ⟨r, s, hr, hs, (h4 e.1 e.2.1 e.2.2 he).2 r s hr hs⟩
  refine ⟨globs, h1, h3, ?_, ?_⟩
  · unfold List.Nodup at h2
    rw [List.pairwise_map] at h2
    refine List.Pairwise.imp_of_mem ?_ h2
    intro e e' he he' hne
    obtain ⟨r, s, hr, hs, hg⟩ := href e he
    obtain ⟨r', s', hr', hs', hg'⟩ := href e' he'
    have := ((got_slots_distinct h.toGoodRun hs).2 _ hg).2.2.2 r' s' _ hs' hg' (by
      rintro rfl
      exact hne (h.refers_inj hr hr'))
    omega
  · intro n o k he
    obtain ⟨r, s, hr, hs, hg⟩ := href _ he
    exact ⟨(h4 n o k he).1, ((got_slots_distinct h.toGoodRun hs).2 _ hg).2.2.1, (h4 n o k he).2⟩

/-- allocated sections other than `.copyrel` do not overlap -/
theorem GoodRun.shdrs_apart (G : GoodRun opts ops sched w w' file secs) {a b : EShdr} (ha : a ∈ shdrs file) (hb : b ∈ shdrs file)
    (hne : Spec.nameOf file a ≠ Spec.nameOf file b) (haa : a.allocated = true) (hba : b.allocated = true)
    (hac : Spec.nameOf file a ≠ some b!".copyrel") (hbc : Spec.nameOf file b ≠ some b!".copyrel") :
    a.addr + a.size ≤ b.addr ∨ b.addr + b.size ≤ a.addr := by
  obtain ⟨i, hi⟩ := List.getElem?_of_mem ha
  obtain ⟨j, hj⟩ := List.getElem?_of_mem hb
  obtain ⟨s, hs, rfl⟩ := G.header_at hi
  obtain ⟨t, ht, rfl⟩ := G.header_at hj
  have ks := fun e => hac ((G.copyRel_name (List.mem_of_getElem? hs)).2 e)
  have kt := fun e => hbc ((G.copyRel_name (List.mem_of_getElem? ht)).2 e)
  rcases Nat.lt_trichotomy i j with hlt | rfl | hlt
  · exact .inl (C38_sections_disjoint_partial G.run G.good.flags i j s t hlt hs ht haa hba ks)
  · rw [hs] at ht
    cases ht
    exact absurd rfl hne
  · exact .inr (C38_sections_disjoint_partial G.run G.good.flags j i t s hlt ht hs hba haa kt)

theorem name_of_named {e : EShdr} {n : Name} (h : sectionsNamed file n = [e]) : e ∈ shdrs file ∧ Spec.nameOf file e = some n := by
  have : e ∈ sectionsNamed file n := by rw [h]; exact .head _
  exact ⟨(List.mem_filter.1 this).1, eq_of_beq (List.mem_filter.1 this).2⟩

/-- the sections that the loader writes to -/
structure Slots (file : Bytes) (got gotPlt : EShdr) : Prop where
  gotSec : sectionsNamed file b!".got" = [got]
  gotPltSec : sectionsNamed file b!".got.plt" = [gotPlt]
  gotWrite : got.flags.testBit 0 = true
  gotPltWrite : gotPlt.flags.testBit 0 = true
  gotAlloc : got.allocated = true
  gotPltAlloc : gotPlt.allocated = true
  gotSize : got.size = (bodyNamed file b!".got").length
  gotPltSize : gotPlt.size = (bodyNamed file b!".got.plt").length
  gotAddr : got.addr = addrNamed file b!".got"
  gotPltAddr : gotPlt.addr = addrNamed file b!".got.plt"
  gotMem : readMem (memAt file) got.addr got.size = some (bodyNamed file b!".got")
  gotPltMem : readMem (memAt file) gotPlt.addr gotPlt.size = some (bodyNamed file b!".got.plt")
  apart : got.addr + got.size ≤ gotPlt.addr ∨ gotPlt.addr + gotPlt.size ≤ got.addr

theorem GoodRun.own_alloc (G : GoodRun opts ops sched w w' file secs) {p : Nat} (hp : p ∈ (baseIdents opts.hashStyle).map (·.1))
    (hlt : p < P.first) (hf : (ownOrigin p).2.2.2.2.1.testBit 1 = true) {e : EShdr} (he : sectionsNamed file (ptrName p) = [e]) : e.allocated = true := by
  obtain ⟨t, hts, htp, htn⟩ := G.own hp
  rw [he] at htn
  cases htn
  have h2 := (G.own_header hts (by rw [htp]; exact hlt)).2
  rw [htp] at h2
  show t.sh.sh_flags.testBit 1 = true
  rw [h2]; exact hf

theorem GoodRun.own_flags (G : GoodRun opts ops sched w w' file secs) {p : Nat} (hp : p ∈ (baseIdents opts.hashStyle).map (·.1))
    (hlt : p < P.first) {e : EShdr} (he : sectionsNamed file (ptrName p) = [e]) : e.flags = (ownOrigin p).2.2.2.2.1 := by
  obtain ⟨t, hts, htp, htn⟩ := G.own hp
  rw [he] at htn
  cases htn
  have h2 := (G.own_header hts (by rw [htp]; exact hlt)).2
  rw [htp] at h2
  exact h2

theorem GoodRun.slots (G : GoodRun opts ops sched w w' file secs) (Z : ZeroFillLast file) : ∃ got gotPlt, Slots file got gotPlt := by
  have base : ∀ p ∈ [P.got, P.gotPlt], p ∈ (baseIdents opts.hashStyle).map (·.1) := by cases opts.hashStyle <;> decide
  obtain ⟨a, ha, a1, a2, a3, a4⟩ := G.own_mem Z (base P.got (by simp)) (by decide) (by decide) (by decide)
  obtain ⟨b, hb, b1, b2, b3, b4⟩ := G.own_mem Z (base P.gotPlt (by simp)) (by decide) (by decide) (by decide)
  have a5 := G.own_alloc (base P.got (by simp)) (by decide) (by decide) a1
  have b5 := G.own_alloc (base P.gotPlt (by simp)) (by decide) (by decide) b1
  have a6 := (name_of_named a1).2
  have b6 := (name_of_named b1).2
  have a7 := G.own_flags (base P.got (by simp)) (by decide) a1
  have b7 := G.own_flags (base P.gotPlt (by simp)) (by decide) b1
  refine ⟨a, b, a1, b1, by rw [a7]; decide, by rw [b7]; decide, a5, b5, a2, b2, a3, b3, a4, b4, G.shdrs_apart ha hb ?_ a5 b5 ?_ ?_⟩
  · rw [a6, b6]; decide
  · rw [a6]; decide
  · rw [b6]; decide

/-- where the dynamic relocations write -/
theorem GoodLink.writes (h : GoodLink opts ops sched w w' file secs) (T : LoaderTables file) {got gotPlt : EShdr} (S : Slots file got gotPlt) {r : ERela} :
    (r ∈ relasOf (bodyNamed file b!".rela.dyn") → r.type = 6 ∧ relWidth file r = 8 ∧ got.addr ≤ r.offset ∧ r.offset + 8 ≤ got.addr + got.size ∨
      r.type = 5 ∧ ∃ y, (symsOf (bodyNamed file b!".dynsym"))[r.sym]? = some y ∧ relWidth file r = y.size) ∧
    (r ∈ relasOf (bodyNamed file b!".rela.plt") → r.type = 7 ∧ relWidth file r = 8 ∧ gotPlt.addr ≤ r.offset ∧ r.offset + 8 ≤ gotPlt.addr + gotPlt.size) := by
  constructor
  · intro hr
    obtain ⟨st, hst⟩ := h.run.stages
    rcases (h.relaDyn st hst).2.2 r hr with ht | ht
    · left
      obtain ⟨globs, g1, _, _, g4⟩ := h.glob_apart
      have hm : r ∈ (relasOf (bodyNamed file b!".rela.dyn")).filter (fun r => r.type == 6) := List.mem_filter.2 ⟨hr, by simp [ht]⟩
      rw [g1] at hm
      obtain ⟨⟨n, o, k⟩, he, rfl⟩ := List.mem_map.1 hm
      have := (g4 n o k he).2.1
      refine ⟨rfl, by simp [relWidth], ?_, ?_⟩
      · simp only [S.gotAddr]; omega
      · rw [S.gotSize, S.gotAddr]; simp only; omega
    · right
      obtain ⟨copies, c1, _, _, _, c5⟩ := copies_in_file h
      have hm : r ∈ (relasOf (bodyNamed file b!".rela.dyn")).filter (fun r => r.type == 5) := List.mem_filter.2 ⟨hr, by simp [ht]⟩
      rw [c1] at hm
      obtain ⟨⟨n, o, k, y⟩, he, rfl⟩ := List.mem_map.1 hm
      obtain ⟨d1, d2, _⟩ := c5 n o k y he
      refine ⟨rfl, y, d1, ?_⟩
      have := T.sym k y n d1 d2
      simp [relWidth, this]
  · intro hr
    obtain ⟨j, hj⟩ := List.getElem?_of_mem hr
    obtain ⟨i, k, n, hp, hb, _⟩ := h.plt_rel hj
    have := hp.rel
    rw [hj] at this
    cases this
    refine ⟨rfl, by simp [relWidth], ?_, ?_⟩
    · simp only [S.gotPltAddr]; omega
    · rw [S.gotPltSize, S.gotPltAddr]; simp only; omega

/-- starting a program changes nothing in a section that is clear of copies, except in `.got` and `.got.plt` -/
theorem GoodLink.started_frame (h : GoodLink opts ops sched w w' file secs) (T : LoaderTables file) {got gotPlt : EShdr} (S : Slots file got gotPlt)
    {libs : Libs} {m : Mem} (hm : started file libs = some m) {e : EShdr} (he : e ∈ shdrs file) (ha : e.allocated = true) {n : Name}
    (hn : Spec.nameOf file e = some n) (hnn : n ≠ b!".got" ∧ n ≠ b!".got.plt" ∧ n ≠ b!".copyrel") (hc : ClearOfCopies file e) (x : Nat) (hx : e.addr ≤ x)
    (hx' : x < e.addr + e.size) : m x = memAt file x := by
  unfold started at hm
  rw [T.rela, T.plt] at hm
  refine (relocateAll_frame hm).1 x fun r hr hrx => ?_
  have hne : ∀ {s : EShdr} {k : Name}, sectionsNamed file k = [s] → s.allocated = true → n ≠ k → k ≠ b!".copyrel" →
      e.addr + e.size ≤ s.addr ∨ s.addr + s.size ≤ e.addr := by
    intro s k hs hsa hk hkc
    obtain ⟨s1, s2⟩ := name_of_named hs
    refine h.toGoodRun.shdrs_apart he s1 ?_ ha hsa ?_ ?_
    · rw [hn, s2]; exact fun e => hk (Option.some.inj e)
    · rw [hn]; exact fun e => hnn.2.2 (Option.some.inj e)
    · rw [s2]; exact fun e => hkc (Option.some.inj e)
  have d1 := hne S.gotSec S.gotAlloc hnn.1 (by decide)
  have d2 := hne S.gotPltSec S.gotPltAlloc hnn.2.1 (by decide)
  obtain ⟨w1, w2⟩ := h.writes T S (r := r)
  rcases List.mem_append.1 hr with hr | hr
  · rcases w1 hr with ⟨_, b, c, d⟩ | ⟨ht, y, hy, hw⟩
    · rw [b] at hrx; omega
    · have := hc r hr ht y hy
      rw [hw] at hrx; omega
  · obtain ⟨_, b, c, d⟩ := w2 hr
    rw [b] at hrx; omega

/-- the word of a function when the program starts -/
theorem GoodLink.started_plt (h : GoodLink opts ops sched w w' file secs) (T : LoaderTables file)
    {libs : Libs} {m : Mem} (hm : started file libs = some m) {i j k : Nat} {n : Name} (hp : PltSlot file i j k n) :
    ∃ a, boundTo file libs k = some a ∧ wordAt m (addrNamed file b!".got.plt" + 8 * (i + 3)) = some a := by
  unfold started at hm
  rw [T.rela, T.plt] at hm
  simp only [Option.bind_eq_bind, Option.bind_some] at hm
  obtain ⟨hlt, hge⟩ := List.getElem?_eq_some_iff.1 hp.rel
  have hsplit := List.take_append_drop j (relasOf (bodyNamed file b!".rela.plt"))
  rw [List.drop_eq_getElem_cons hlt] at hsplit
  rw [← hsplit, ← List.append_assoc] at hm
  obtain ⟨a, h1, h2⟩ := relocateAll_word (r := (relasOf (bodyNamed file b!".rela.plt"))[j]) (by rw [hge]; exact .inr rfl) hm (by
    intro r hr
    obtain ⟨q, hq⟩ := List.getElem?_of_mem hr
    rw [List.getElem?_drop] at hq
    obtain ⟨i', k', n', hp', _⟩ := h.plt_rel hq
    have hii : i ≠ i' := by
      rintro rfl
      have := PltSlot.inj hp hp'
      omega
    have := hp'.rel
    rw [hq] at this
    cases this
    rw [hge]
    simp only [relWidth]
    simp
    omega)
  rw [hge] at h1 h2
  simp only at h1 h2
  exact ⟨a, h1, by unfold wordAt; rw [h2, Option.map_some, fromLe_le64 (boundTo_small h1)]⟩

/-- the word of a symbol in `.got` when the program starts -/
theorem GoodLink.started_got (h : GoodLink opts ops sched w w' file secs) (T : LoaderTables file) {got gotPlt : EShdr} (S : Slots file got gotPlt)
    {libs : Libs} {m : Mem} (hm : started file libs = some m) (hc : ClearOfCopies file got) {r : ERela} (hr : r ∈ relasOf (bodyNamed file b!".rela.dyn"))
    (ht : r.type = 6) : ∃ a, boundTo file libs r.sym = some a ∧ wordAt m r.offset = some a := by
  unfold started at hm
  rw [T.rela, T.plt] at hm
  simp only [Option.bind_eq_bind, Option.bind_some] at hm
  obtain ⟨pre, post, hsplit⟩ := List.append_of_mem hr
  have hpair : (relasOf (bodyNamed file b!".rela.dyn")).Pairwise fun r r' => (r.type == 6) = true → (r'.type == 6) = true →
      r.offset + 8 ≤ r'.offset ∨ r'.offset + 8 ≤ r.offset := by
    rw [← List.pairwise_filter]
    obtain ⟨globs, g1, _, g3, _⟩ := h.glob_apart
    rw [g1, List.pairwise_map]
    exact g3.imp fun hx => by simp only; omega
  have hm0 := hm
  rw [hsplit, List.append_assoc, List.cons_append] at hm
  have hrr := ((h.writes T S (r := r)).1 hr).resolve_right (by rw [ht]; rintro ⟨h, _⟩; cases h)
  obtain ⟨a, h1, h2⟩ := relocateAll_word (.inl ht) hm (by
    intro r' hr'
    rcases List.mem_append.1 hr' with hr' | hr'
    · have hmem : r' ∈ relasOf (bodyNamed file b!".rela.dyn") := by rw [hsplit]; exact List.mem_append_right _ (.tail _ hr')
      rcases (h.writes T S (r := r')).1 hmem with ⟨ht', hw, _⟩ | ⟨ht', y, hy, hw⟩
      · rw [hsplit] at hpair
        have := List.rel_of_pairwise_cons (List.pairwise_append.1 hpair).2.1 hr' (by simp [ht]) (by simp [ht'])
        rw [hw]; omega
      · have := hc r' hmem ht' y hy
        rw [hw]; omega
    · obtain ⟨_, hw, hb⟩ := (h.writes T S (r := r')).2 hr'
      have := S.apart
      rw [hw]; omega)
  exact ⟨a, h1, by unfold wordAt; rw [h2, Option.map_some, fromLe_le64 (boundTo_small h1)]⟩

/-- what the loader finds for a symbol of a shared library: a data object is its copy, everything else is in the library -/
theorem GoodLink.bound (h : GoodLink opts ops sched w w' file secs) (L : LoaderTables file) {n : Name} (hi : ImportedIn ops n) {k : Nat}
    (hk : dynName file k = some n) : ∃ y, (symsOf (bodyNamed file b!".dynsym"))[k]? = some y ∧ ∀ libs,
      boundTo file libs k = if y.info % 16 = 1 then some y.value else libs.addr n := by
  obtain ⟨st, hst⟩ := h.run.stages
  obtain ⟨ns, nd, T⟩ := h.run.hist.tableFacts
  obtain ⟨m, hm, F⟩ := h.import_of st T hi
  obtain ⟨y, hy⟩ : ∃ y, (symsOf (bodyNamed file b!".dynsym"))[k]? = some y := by
    unfold dynName at hk
    cases hy : (symsOf (bodyNamed file b!".dynsym"))[k]? with
    | none => rw [hy] at hk; cases hk
    | some y => exact ⟨y, rfl⟩
  have hne : n ≠ [] := by
    obtain ⟨e, path, ho⟩ := F.offer
    exact h.symNames.nonempty _ _ _ _ ho
  obtain ⟨s, hs, rfl⟩ := h.dyn_entry T hy hk hne F.memD
  refine ⟨_, hy, fun libs => ?_⟩
  have hp := st.final_place h.run.valid h.run.hist (by rw [hst, ← h.run.secs_length]; have := h.fit.count; omega) (k := u32 (nameOff nd n)) (by rw [hst]; exact hs)
  unfold boundTo
  rw [L.sym k _ n hy hk]
  simp only [Option.bind_eq_bind, Option.bind_some]
  have e1 : s.sym.toSpec.shndx = s.sym.st_shndx := rfl
  have e2 : s.sym.toSpec.info = s.sym.st_info := rfl
  rw [e1, e2]
  by_cases h0 : s.sym.st_info % 16 = 1
  · rw [if_pos h0, if_pos (fun h1 => hp.1 h1 h0)]
  · rw [if_neg h0, if_neg (fun h1 => h1 (hp.2 h0))]

/-- the writable addresses of a section -/
theorem GoodRun.section_writable (G : GoodRun opts ops sched w w' file secs) {e : EShdr} (he : e ∈ shdrs file) (ha : e.allocated = true)
    (hn : Spec.nameOf file e ≠ some b!".copyrel") {x : Nat} (h1 : e.addr ≤ x) (h2 : x < e.addr + e.size) : writableAt file x = e.flags.testBit 0 := by
  obtain ⟨i, hi⟩ := List.getElem?_of_mem he
  obtain ⟨s, hs, rfl⟩ := G.header_at hi
  obtain ⟨ph, hph, c1, _, c3, _, _, c6, _⟩ := C41_covered_partial G.run G.good.flags i s hs ha
  have c3 := c3 fun hk => hn ((G.copyRel_name (List.mem_of_getElem? hs)).2 hk)
  unfold writableAt
  have h1 : s.sh.sh_addr ≤ x := h1
  have h2 : x < s.sh.sh_addr + s.sh.sh_size := h2
  rw [G.segment hph (by omega) (by omega)]
  show ph.p_flags.testBit 1 = s.sh.sh_flags.testBit 0
  rw [Bool.eq_iff_iff, c6]
  rfl

/-- starting a program changes nothing in a section that is not writable -/
theorem GoodRun.started_fixed (G : GoodRun opts ops sched w w' file secs) {libs : Libs} {m : Mem} (hm : started file libs = some m) {e : EShdr}
    (he : e ∈ shdrs file) (ha : e.allocated = true) (hw : e.flags.testBit 0 = false) {x : Nat} (h1 : e.addr ≤ x) (h2 : x < e.addr + e.size) :
    m x = memAt file x := by
  have hn : Spec.nameOf file e ≠ some b!".copyrel" := by
    intro hn
    have base : P.copyRel ∈ (baseIdents opts.hashStyle).map (·.1) := by cases opts.hashStyle <;> decide
    obtain ⟨t, hts, htp, htn⟩ := G.own base
    have : e ∈ sectionsNamed file (ptrName P.copyRel) := List.mem_filter.2 ⟨he, by rw [hn]; decide⟩
    rw [htn, List.mem_singleton] at this
    subst this
    have h2 := (G.own_header hts (by rw [htp]; decide)).2
    rw [htp] at h2
    have hw : t.sh.sh_flags.testBit 0 = false := hw
    rw [h2] at hw
    exact absurd hw (by decide)
  unfold started at hm
  simp only [Option.bind_eq_bind, Option.bind_eq_some_iff] at hm
  obtain ⟨_, _, _, _, hm⟩ := hm
  exact (relocateAll_frame hm).2 x (by rw [G.section_writable he ha hn h1 h2, hw])

/-- an instruction in a section that is not writable, when the program has started -/
theorem GoodRun.started_instr (G : GoodRun opts ops sched w w' file secs) (Z : ZeroFillLast file) {libs : Libs} {m : Mem} (hm : started file libs = some m)
    {e : EShdr} (he : e ∈ shdrs file) (ha : e.allocated = true) (hw : e.flags.testBit 0 = false) (ht : e.type ≠ 8) {p : Nat} {ins : Instr} {k : Nat}
    (hd : decodeInstr (bodyOf file e) p (e.addr + p : Nat) = some (ins, k)) : instrAt m (e.addr + p) = some ins := by
  have hb := G.section_mem Z he ha ht
  rw [readMem_iff] at hb
  have hl := decodeInstr_len hd
  refine instrAt_of hd fun i hi => ?_
  rw [G.started_fixed hm he ha hw (by omega) (by omega), Nat.add_assoc, hb.2 (p + i) (by omega)]

/-! ### The properties -/

/-- **C99**, what holds: the dynamic loader, which knows the program headers and the memory only, finds the relocations of `.rela.dyn` and `.rela.plt` and the
symbols of `.dynsym`, if zero-fill sections stand behind the sections with contents. -/
theorem C99_tables_partial (h : GoodRun opts ops sched w w' file secs) (hp : PlainTypes ops) (hz : ZeroFillLast file) : LoaderTables file :=
  h.loader_tables hp hz

/-- **C100**, what holds: the program starts if every library function and object that it uses is there, zero-fill sections stand behind the sections with
contents, and the places of the copied objects can be written. -/
theorem C100_starts_partial (h : GoodLink opts ops sched w w' file secs) (hp : PlainTypes ops) (hz : ZeroFillLast file) {libs : Libs}
    (hl : ∀ n, ImportedIn ops n → (libs.addr n).isSome = true)
    (hc : ∀ r ∈ relasOf (bodyNamed file b!".rela.dyn"), r.type = 5 → ∀ y, (symsOf (bodyNamed file b!".dynsym"))[r.sym]? = some y →
      ∀ i, i < y.size → writableAt file (r.offset + i) = true) : ∃ m, started file libs = some m := by
  have T := h.toGoodRun.loader_tables hp hz
  obtain ⟨got, gotPlt, S⟩ := h.toGoodRun.slots hz
  have hbound : ∀ {k n}, ImportedIn ops n → dynName file k = some n → ∃ a, boundTo file libs k = some a := by
    intro k n hi hk
    obtain ⟨y, _, hb⟩ := h.bound T hi hk
    rw [hb libs]
    split
    · exact ⟨_, rfl⟩
    · exact Option.isSome_iff_exists.1 (hl n hi)
  have hwrite : ∀ {s : EShdr} {k : Name}, sectionsNamed file k = [s] → k ≠ b!".copyrel" → s.allocated = true → s.flags.testBit 0 = true →
      ∀ x, s.addr ≤ x → x < s.addr + s.size → writableAt file x = true := by
    intro s k hs hk hsa hf x h1 h2
    obtain ⟨s1, s2⟩ := name_of_named hs
    rw [h.toGoodRun.section_writable s1 hsa (by rw [s2]; exact fun e => hk (Option.some.inj e)) h1 h2, hf]
  unfold started
  rw [T.rela, T.plt]
  refine relocateAll_exists fun r hr => ?_
  obtain ⟨w1, w2⟩ := h.writes T S (r := r)
  rcases List.mem_append.1 hr with hr | hr
  · rcases w1 hr with ⟨ht, _, b1, b2⟩ | ⟨ht, y, hy, _⟩
    · left
      obtain ⟨globs, g1, g2, _, g4⟩ := h.glob_apart
      have hm : r ∈ (relasOf (bodyNamed file b!".rela.dyn")).filter (fun r => r.type == 6) := List.mem_filter.2 ⟨hr, by simp [ht]⟩
      rw [g1] at hm
      obtain ⟨⟨n, o, k⟩, he, rfl⟩ := List.mem_map.1 hm
      exact ⟨.inl rfl, hbound ((g2 n).1 (List.mem_map.2 ⟨_, he, rfl⟩)).1 (g4 n o k he).1,
        fun i hi => hwrite S.gotSec (by decide) S.gotAlloc S.gotWrite _ (by omega) (by omega)⟩
    · right
      obtain ⟨copies, c1, _, _, _, c5⟩ := copies_in_file h
      have hm : r ∈ (relasOf (bodyNamed file b!".rela.dyn")).filter (fun r => r.type == 5) := List.mem_filter.2 ⟨hr, by simp [ht]⟩
      rw [c1] at hm
      obtain ⟨⟨n, o, k, y'⟩, he, rfl⟩ := List.mem_map.1 hm
      obtain ⟨d1, d2, _⟩ := c5 n o k y' he
      exact ⟨rfl, y', n, T.sym k y' n d1 d2, hc _ hr rfl y' d1⟩
  · left
    obtain ⟨ht, _, b1, b2⟩ := w2 hr
    obtain ⟨j, hj⟩ := List.getElem?_of_mem hr
    obtain ⟨i, k, n, hp, _, hi⟩ := h.plt_rel hj
    have := hp.rel
    rw [hj] at this
    cases this
    exact ⟨.inr rfl, hbound hi hp.sym, fun i hi => hwrite S.gotPltSec (by decide) S.gotPltAlloc S.gotPltWrite _ (by omega) (by omega)⟩

/-- **C101**, what holds: when the program has started, every call of a function of a shared library, or jump to it, leads through the PLT to that function.
`ins` is the instruction whose last four bytes the relocation fills. -/
theorem C101_call_partial (h : GoodLink opts ops sched w w' file secs) (hp : PlainTypes ops) (hz : ZeroFillLast file) {libs : Libs} {m : Mem}
    (hm : started file libs = some m) {s n : Name} {off : Nat} {rel : Rela} {y : SymbolRef} (hr : RefersAt ops s off rel y) (hs : s ≠ [])
    (hy : Refers ops y n) (hi : ImportedIn ops n) (h4 : relType rel = 4) (ha : rel.r_addend = -4)
    {k : Nat} {d : ESym} (hd : (symsOf (bodyNamed file b!".dynsym"))[k]? = some d) (hk : dynName file k = some n) (hf : d.info % 16 ≠ 1)
    {o : EShdr} (ho : sectionsNamed file s = [o]) (hal : o.allocated = true) (hw : o.flags.testBit 0 = false) (ht : o.type ≠ 8)
    {p len : Nat} {ins : Instr} {t : Int} (hins : decodeInstr (bodyOf file o) p (o.addr + p : Nat) = some (ins, len)) (hlen : p + len = off + 4)
    (htar : ins.target = some t) :
    instrAt m (o.addr + p) = some ins ∧ ∃ t' a : Nat, t = t' ∧ JumpsTo m t' a ∧ libs.addr n = some a := by
  have T := h.toGoodRun.loader_tables hp hz
  obtain ⟨got, gotPlt, S⟩ := h.toGoodRun.slots hz
  refine ⟨h.toGoodRun.started_instr hz hm (name_of_named ho).1 hal hw ht hins, ?_⟩
  obtain ⟨o', i, j, k', ho', hslot, hfield⟩ := C90_call h hr hs hy hi h4
  rw [ho] at ho'
  cases ho'
  obtain ⟨h4', e⟩ := decodeInstr_target hins htar
  have hfo : sfield (bodyOf file o) (p + len - 4) 4 = fieldOf file o off 4 := by unfold fieldOf; congr 1; omega
  rw [hfo, hfield, ha] at e
  obtain ⟨a, hb, hword⟩ := h.started_plt T hm hslot
  have hkk := h.dynName_inj hk hslot.sym
  subst hkk
  obtain ⟨d', hd', hb'⟩ := h.bound T hi hk
  rw [hd] at hd'
  cases hd'
  rw [hb', if_neg hf] at hb
  refine ⟨addrNamed file b!".plt" + 16 * (i + 1), a, by omega, ?_, hb⟩
  have base : P.plt ∈ (baseIdents opts.hashStyle).map (·.1) := by cases opts.hashStyle <;> decide
  obtain ⟨q, hts, htp, htn⟩ := h.toGoodRun.own base
  have htn : sectionsNamed file b!".plt" = [q.sh.toSpec] := htn
  obtain ⟨_, b1, a1⟩ := sectionNamed_one htn
  obtain ⟨q1, q2⟩ := h.toGoodRun.own_header hts (by rw [htp]; decide)
  rw [htp] at q1 q2
  have hj := hslot.jump
  rw [b1, a1] at hj
  have hw' : q.sh.toSpec.flags.testBit 0 = false := by show q.sh.sh_flags.testBit 0 = false; rw [q2]; decide
  have hal' : q.sh.toSpec.allocated = true := by show q.sh.sh_flags.testBit 1 = true; rw [q2]; decide
  have ht' : q.sh.toSpec.type ≠ 8 := by show q.sh.sh_type ≠ 8; rw [q1]; decide
  have := h.toGoodRun.started_instr hz hm (name_of_named htn).1 hal' hw' ht' hj
  rw [a1]
  exact .through this hword

/-- **C102**, what holds: when the program has started, every load, call or jump through the GOT of the address of a symbol of a shared library finds the
address of that symbol: where the library has it, or its copy if it is a data object. `ins` is the instruction whose last four bytes the relocation fills.
What is missing: copies of data objects may overwrite the words of `.got` (`C102_got_violated`). -/
theorem C102_got_partial (h : GoodLink opts ops sched w w' file secs) (hp : PlainTypes ops) (hz : ZeroFillLast file) {libs : Libs} {m : Mem}
    (hm : started file libs = some m) {s n : Name} {off : Nat} {rel : Rela} {y : SymbolRef} (hr : RefersAt ops s off rel y) (hs : s ≠ [])
    (hy : Refers ops y n) (hi : ImportedIn ops n) (h4 : relType rel = 41 ∨ relType rel = 42) (ha : rel.r_addend = -4)
    {g : EShdr} (hg : sectionsNamed file b!".got" = [g]) (hc : ClearOfCopies file g)
    {o : EShdr} (ho : sectionsNamed file s = [o]) (hal : o.allocated = true) (hw : o.flags.testBit 0 = false) (ht : o.type ≠ 8)
    {p len : Nat} {ins : Instr} {ea : Int} (hins : decodeInstr (bodyOf file o) p (o.addr + p : Nat) = some (ins, len)) (hlen : p + len = off + 4)
    (hop : ins.operand = some ea) :
    instrAt m (o.addr + p) = some ins ∧ ∃ ea' k d a, ea = (ea' : Nat) ∧ wordAt m ea' = some a ∧
      (symsOf (bodyNamed file b!".dynsym"))[k]? = some d ∧ dynName file k = some n ∧ (if d.info % 16 = 1 then some d.value else libs.addr n) = some a := by
  have T := h.toGoodRun.loader_tables hp hz
  obtain ⟨got, gotPlt, S⟩ := h.toGoodRun.slots hz
  have hgg := S.gotSec
  rw [hg] at hgg
  cases hgg
  refine ⟨h.toGoodRun.started_instr hz hm (name_of_named ho).1 hal hw ht hins, ?_⟩
  obtain ⟨o', c, k, ho', _, hk, hfil, hfield⟩ := C91_got_load h hr hs hy hi h4
  rw [ho] at ho'
  cases ho'
  obtain ⟨h4', e⟩ := decodeInstr_operand hins hop
  have hfo : sfield (bodyOf file o) (p + len - 4) 4 = fieldOf file o off 4 := by unfold fieldOf; congr 1; omega
  rw [hfo, hfield, ha] at e
  have hmem : ⟨addrNamed file b!".got" + c, k, 6, 0⟩ ∈ relasOf (bodyNamed file b!".rela.dyn") :=
    (List.mem_filter.1 (by rw [hfil]; exact .head _)).1
  obtain ⟨a, hb, hword⟩ := h.started_got T S hm hc hmem rfl
  obtain ⟨d, hd, hb'⟩ := h.bound T hi hk
  exact ⟨addrNamed file b!".got" + c, k, d, a, by omega, hword, hd, hk, by rw [← hb', hb]⟩

/-- **C103**, what holds: when the program has started, its code and data are what the file has: every section with contents, other than the tables that the
loader fills, holds its bytes, if no copy of a data object reaches into it. -/
theorem C103_contents_partial (h : GoodLink opts ops sched w w' file secs) (hp : PlainTypes ops) (hz : ZeroFillLast file) {libs : Libs} {m : Mem}
    (hm : started file libs = some m) {e : EShdr} (he : e ∈ shdrs file) (hal : e.allocated = true) (ht : e.type ≠ 8) {n : Name}
    (hn : Spec.nameOf file e = some n) (hnn : n ≠ b!".got" ∧ n ≠ b!".got.plt" ∧ n ≠ b!".copyrel") (hc : e.flags.testBit 0 = true → ClearOfCopies file e) :
    readMem m e.addr e.size = some (bodyOf file e) := by
  rw [← h.toGoodRun.section_mem hz he hal ht]
  obtain ⟨got, gotPlt, S⟩ := h.toGoodRun.slots hz
  apply readMem_congr
  intro x h1 h2
  cases hw : e.flags.testBit 0 with
  | false => exact h.toGoodRun.started_fixed hm he hal hw h1 h2
  | true => exact h.started_frame (h.toGoodRun.loader_tables hp hz) S hm he hal hn hnn (hc hw) x h1 h2

end Dld
