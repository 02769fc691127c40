import Verif.Spec.Files
import Verif.Lemmas.Sound3
import Verif.Lemmas.LinkCalls
import Verif.Props.Refs
/-! # From the calls of a link to the files it links -/
namespace Dld
open Writer Spec StringTable

variable {env : Env} {l : Linker} {N : List Call → Name → Prop} {loaded pre post : List Loaded} {log : List Call} {x : Loaded}

/-! ### Where a section starts -/

theorem split_unique {α : Type} {a a' b b' : List α} {c : α} (h : a ++ c :: b = a' ++ c :: b') (hn : (a ++ c :: b).Nodup) : a = a' ∧ b = b' := by
  induction a generalizing a' with
  | nil =>
    cases a' with
    | nil => simpa using h
    | cons d a' =>
      simp only [List.nil_append, List.cons_append, List.cons.injEq] at h
      rw [List.nil_append, List.nodup_cons, h.2] at hn
      exact absurd (by simp [h.1]) hn.1
  | cons e a ih =>
    cases a' with
    | nil =>
      simp only [List.nil_append, List.cons_append, List.cons.injEq] at h
      rw [List.cons_append, List.nodup_cons, h.1] at hn
      exact absurd (by simp) hn.1
    | cons d a' =>
      simp only [List.cons_append, List.cons.injEq] at h
      obtain ⟨h1, h2⟩ := ih h.2 (by rw [List.cons_append, List.nodup_cons] at hn; exact hn.2)
      exact ⟨by rw [h.1, h1], h2⟩

theorem split_sorted {α : Type} {k : List (α × Nat)} (h : k.Pairwise fun a b => a.2 < b.2) {e : α × Nat} (he : e ∈ k) :
    k = k.filter (fun s => s.2 < e.2) ++ e :: k.filter (fun s => e.2 < s.2) := by
  induction k with
  | nil => cases he
  | cons d k ih =>
    rw [List.pairwise_cons] at h
    rcases List.mem_cons.1 he with rfl | he
    · have h1 : k.filter (fun s => s.2 < e.2) = [] := by
        rw [List.filter_eq_nil_iff]
        intro s hs
        have := h.1 s hs
        simp only [decide_eq_true_eq]; omega
      have h2 : k.filter (fun s => e.2 < s.2) = k := by
        rw [List.filter_eq_self]
        intro s hs
        simpa using h.1 s hs
      simp [List.filter_cons, h1, h2]
    · have hlt := h.1 e he
      rw [List.filter_cons, if_pos (by simpa using hlt), List.filter_cons, if_neg (by simp only [decide_eq_true_eq]; omega), List.cons_append,
        ← ih h.2 he]

theorem ElfFile.copied_sorted (e : ElfFile) : e.copied.Pairwise fun a b => a.2 < b.2 := by
  unfold ElfFile.copied
  refine List.Pairwise.filter _ ?_
  have : (e.sectionHeaders.zipIdx.map (·.2)).Pairwise (· < ·) := by
    rw [Linker.zipIdx_snd]
    exact List.pairwise_lt_range'
  rwa [List.pairwise_map] at this

theorem ElfFile.mem_copied {e : ElfFile} {i : Nat} {sh : SectionHeader} : (sh, i) ∈ e.copied ↔ e.sectionHeaders[i]? = some sh ∧ sh.sh_type ∉ auxiliaryTypes := by
  unfold ElfFile.copied
  rw [List.mem_filter, List.mem_zipIdx_iff_getElem?]
  simp

namespace Calls

/-- the size of the part of the output section `n` that a call is for -/
def pushSize (n : Name) : Op → Nat
  | .push m sh _ _ => if m = n then sh.sh_size else 0
  | _ => 0

theorem offsetOf_sum (n : Name) (ops : List Op) : offsetOf n ops = (ops.map (pushSize n)).sum := by
  unfold offsetOf
  induction ops with
  | nil => rfl
  | cons op ops ih =>
    rw [List.map_cons, List.sum_cons, ← ih]
    cases op with
    | push m sh d r =>
      simp only [pushesOf, pushSize]
      split <;> simp
    | _ => simp [pushesOf, pushSize]

def keySize (loaded : List Loaded) (n : Name) (k : Source × Item) : Nat :=
  match k.2 with
  | .section i => ((fileOf loaded k.1).bind fun x => (x.elf.sectionHeaders[i]?).bind fun sh =>
      if x.elf.secName sh.sh_name = some n then some sh.sh_size else none).getD 0
  | _ => 0

theorem size_key (h : Calls env l N loaded log) (n : Name) {c : Call} (hc : c ∈ log) : pushSize n c.op = keySize loaded n (c.source, c.item) := by
  obtain ⟨a, b, e⟩ := List.append_of_mem hc
  cases h.just a c b e with
  | «section» hx hi ht hn hd =>
    simp only [keySize, h.fileOf_eq hx, Option.bind_some, hi, hn, pushSize, Option.some.injEq]
    split <;> rfl
  | symbol hx hj hn hs => rfl
  | reloc hx hk h0 hs hr hy => rfl
  | dynsym hp hd he hj hn hq hm => rfl
  | needed hf => rfl

theorem offsetOf_keys (h : Calls env l N loaded log) (n : Name) {a b : List Call} (e : log = a ++ b) :
    offsetOf n (opsOf a) = ((sectionCalls a).map (keySize loaded n)).sum := by
  rw [offsetOf_sum]
  unfold opsOf sectionCalls
  rw [List.map_map, List.map_map]
  have h0 : ∀ c ∈ a, pushSize n c.op = keySize loaded n (c.source, c.item) := fun c hc => h.size_key n (by rw [e]; exact List.mem_append_left _ hc)
  clear e
  induction a with
  | nil => rfl
  | cons c a ih =>
    have ih := ih fun c hc => h0 c (by simp [hc])
    have h1 := h0 c (by simp)
    rw [List.map_cons, List.sum_cons, ih, List.filter_cons]
    split
    · simp only [List.map_cons, List.sum_cons, Function.comp, h1]
    · next hn =>
      have : keySize loaded n (c.source, c.item) = 0 := by
        cases hi : c.item with
        | «section» i => rw [hi] at hn; exact absurd rfl hn
        | _ => rfl
      simp only [Function.comp, h1, this, Nat.zero_add]

theorem file_size (h : Calls env l N loaded log) (n : Name) (hx : x ∈ loaded) {k : List (SectionHeader × Nat)} (hk : ∀ s ∈ k, s ∈ x.elf.copied) :
    ((k.map fun s => (x.source, Item.section s.2)).map (keySize loaded n)).sum =
      ((k.filter fun s => x.elf.secName s.1.sh_name = some n).map (·.1.sh_size)).sum := by
  induction k with
  | nil => rfl
  | cons s k ih =>
    have ih := ih fun s hs => hk s (by simp [hs])
    have hs := ElfFile.mem_copied.1 (hk s (by simp))
    rw [List.map_cons, List.map_cons, List.sum_cons, ih, List.filter_cons]
    simp only [keySize, h.fileOf_eq hx, Option.bind_some, hs.1]
    by_cases e : x.elf.secName s.1.sh_name = some n
    · simp [e]
    · simp [e]

/-- the sections handed over before a section -/
theorem sections_before (h : Calls env l N loaded log) (e : loaded = pre ++ x :: post) {i : Nat} {op : Op}
    {a b : List Call} (hl : log = a ++ ⟨x.source, .section i, op⟩ :: b) : sectionCalls a =
      pre.flatMap Loaded.sectionKeys ++ (x.elf.copied.filter fun s => s.2 < i).map (fun s => (x.source, Item.section s.2)) := by
  have hx : x ∈ loaded := by rw [e]; simp
  have hk : (x.source, Item.section i) ∈ x.sectionKeys := by
    have hmem : (x.source, Item.section i) ∈ sectionCalls log := by
      rw [hl, sectionCalls_append]
      exact List.mem_append_right _ (by simp [sectionCalls, Item.isSection])
    rw [h.sections, List.mem_flatMap] at hmem
    obtain ⟨y, hy, hm⟩ := hmem
    have hs : y.source = x.source := by
      obtain ⟨s, _, e⟩ := List.mem_map.1 hm
      exact congrArg Prod.fst e
    rwa [h.unique hy hx hs] at hm
  rw [Linker.mem_sectionKeys] at hk
  obtain ⟨⟨sh', i'⟩, hmem, hi⟩ := List.mem_map.1 hk
  simp only at hi
  subst hi
  have hkeys : x.sectionKeys = (x.elf.copied.filter fun s => s.2 < i').map (fun s => (x.source, Item.section s.2)) ++
      (x.source, Item.section i') :: (x.elf.copied.filter fun s => i' < s.2).map (fun s => (x.source, Item.section s.2)) := by
    unfold Loaded.sectionKeys
    conv => lhs; rw [split_sorted x.elf.copied_sorted hmem]
    rw [List.map_append, List.map_cons]
  have hsplit : sectionCalls a ++ (x.source, Item.section i') :: sectionCalls b =
      (pre.flatMap Loaded.sectionKeys ++ (x.elf.copied.filter fun s => s.2 < i').map (fun s => (x.source, Item.section s.2))) ++
      (x.source, Item.section i') :: ((x.elf.copied.filter fun s => i' < s.2).map (fun s => (x.source, Item.section s.2)) ++ post.flatMap Loaded.sectionKeys) := by
    have h1 := h.sections
    rw [hl, sectionCalls_append] at h1
    rw [e, List.flatMap_append, List.flatMap_cons, hkeys] at h1
    simpa [sectionCalls, Item.isSection] using h1
  have hnd := h.once.1
  rw [hl, sectionCalls_append] at hnd
  have hnd : (sectionCalls a ++ (x.source, Item.section i') :: sectionCalls b).Nodup := by simpa [sectionCalls, Item.isSection] using hnd
  exact (split_unique hsplit hnd).1

/-- a section starts in the output section of its name where the sections before it end -/
theorem offset_eq (h : Calls env l N loaded log) (e : loaded = pre ++ x :: post) {i : Nat} {n m : Name} {sh : SectionHeader} {d : Option Bytes} {r : SectionRef}
    {a b : List Call} (hl : log = a ++ ⟨x.source, .section i, .push m sh d r⟩ :: b) : offsetOf n (opsOf a) = placeOf pre x n i := by
  rw [h.offsetOf_keys n hl, h.sections_before e hl, List.map_append, List.sum_append]
  unfold placeOf
  congr 1
  · refine sum_flatMap fun y hy => ?_
    exact h.file_size n (by rw [e]; exact List.mem_append_left _ hy) fun _ hs => hs
  · rw [h.file_size n (by rw [e]; simp) fun s hs => (List.mem_filter.1 hs).1]
    unfold ElfFile.bytesBefore ElfFile.named
    rw [List.filter_filter, List.filter_filter]
    congr 2
    exact List.filter_congr fun s _ => Bool.and_comm _ _

/-- the size of an output section -/
theorem total_eq (h : Calls env l N loaded log) (n : Name) : offsetOf n (opsOf log) = (loaded.map fun y => y.elf.bytesOf n).sum := by
  rw [h.offsetOf_keys n (a := log) (b := []) (by simp), h.sections]
  exact sum_flatMap fun y hy => h.file_size n hy fun _ hs => hs

end Calls

/-! ### References -/

theorem Hist.same_name {opts : Options} {ops : List Op} {w : Writer} (h : Hist opts ops w) {n n' : Name} {sh sh' : SectionHeader} {d d' : Option Bytes}
    {r r' : SectionRef} (hp : Op.push n sh d r ∈ ops) (hp' : Op.push n' sh' d' r' ∈ ops) (e : r.ptr = r'.ptr) : n = n' := by
  obtain ⟨w0, pn, h0, hI⟩ := h.winv
  obtain ⟨_, i, h1, h2⟩ := h.cinv.push _ _ _ _ hp
  obtain ⟨_, j, h3, h4⟩ := h.cinv.push _ _ _ _ hp'
  rw [← e] at h4
  obtain ⟨g1, e1⟩ := List.getElem?_eq_some_iff.1 h2
  obtain ⟨g2, e2⟩ := List.getElem?_eq_some_iff.1 h4
  have : i = j := (List.getElem_inj (hI.ptrs_nodup h0)).1 (e1.trans e2.symm)
  rw [this, h3] at h1
  exact (Option.some.inj h1).symm

theorem mem_relocsIn_call {sr : SectionRef} {c : Call} {b : Rela × SymbolRef} (hb : (match c.op with
        | .reloc rel y r _ => if r = sr then some (rel, y) else none
        | _ => none) = some b) : ∃ path, c.op = .reloc b.1 b.2 sr path := by
  split at hb
  · split at hb
    · next e hr => cases hb; exact ⟨_, hr ▸ e⟩
    · cases hb
  · cases hb

namespace Calls

/-- the relocations for a section with data are those of its file for it -/
theorem reloc_home (h : Calls env l N loaded log) (hc : CleanFiles env l) {opts : Options} {w : Writer} (hh : Hist opts (opsOf log) w)
    (hx : x ∈ loaded) {i : Nat} {m : Name} {sh : SectionHeader} (S : SectionOf x i sh m) (h8 : sh.sh_type ≠ 8) {data : Bytes} {r : SectionRef}
    (hp : (⟨x.source, .section i, .push m sh (some data) r⟩ : Call) ∈ log) {c : Call} {b : Rela} {y : SymbolRef} {p : Path} (hcm : c ∈ log)
    (e : c.op = .reloc b y r p) : ∃ k2 j2 rel2, (k2, i + 1, j2, rel2) ∈ x.elf.usedRelocs ∧ b = rel2.rela ∧ c.source = x.source ∧ c.item = .reloc k2 j2 := by
  obtain ⟨x2, k2, pos2, j2, rel2, s2, sh2, n2, R2⟩ := h.relocCall hcm e
  obtain ⟨d2, hp2, hd2⟩ := R2.push
  have hnn : m = n2 := hh.same_name (List.mem_map.2 ⟨_, hp, rfl⟩) (List.mem_map.2 ⟨_, hp2, rfl⟩) rfl
  subst hnn
  have h82 : sh2.sh_type ≠ 8 := fun h' => h8 ((hc.nobits _ _ _ _ m (h.input hx) ⟨List.mem_of_getElem? S.header, S.copied, S.name⟩
    (h.input R2.file) ⟨List.mem_of_getElem? R2.header, R2.copied, R2.name⟩).2 h')
  unfold SectionBytes at hd2
  rw [if_neg h82] at hd2
  rw [hd2.2] at hp2
  have hcc := hh.push_call_inj hp hp2 rfl rfl
  simp only [Call.mk.injEq, Item.section.injEq] at hcc
  have := h.unique hx R2.file hcc.1
  subst this
  have hi0 : i ≠ 0 := by
    rintro rfl
    have := hc.first _ _ (h.input hx) S.header
    rw [S.name] at this
    exact S.named (Option.some.inj this)
  have hpos : pos2 = i + 1 := by omega
  subst hpos
  exact ⟨k2, j2, rel2, R2.used, R2.rela, R2.source, R2.item⟩

theorem refersIn (h : Calls env l N loaded log) (hc : CleanFiles env l) {opts : Options} {w : Writer} (hh : Hist opts (opsOf log) w)
    (e : loaded = pre ++ x :: post) {i : Nat} {m : Name} {rel : InReloc} {s : Sym} (hr : Reference x i m rel s) :
    ∃ y j s' sec n sh, x.elf.sectionHeaders[i]? = some sh ∧
      RefersIn (opsOf log) m (placeOf pre x m i + rel.r_offset) rel.rela y ((x.data.drop sh.sh_offset).take sh.sh_size) ∧
      (⟨x.source, .symbol j, .sym s' sec n x.path y⟩ : Call) ∈ log ∧ x.elf.syms[j]? = some s' ∧ x.elf.symName s'.st_name = some n ∧
      { s' with st_value := s.st_value } = s := by
  have hx : x ∈ loaded := by rw [e]; simp
  obtain ⟨sh, S, h8⟩ := hr.home
  obtain ⟨h0, k, j, hk⟩ := hr.reloc
  obtain ⟨a, b, s1, y, r, hl, hs1, hr1, hy1⟩ := h.reloc_call hx hk h0 (by simpa using S.header) S.copied
  obtain ⟨x', k', pos', j', rel', s', sh', n', R⟩ := h.relocCall (c := ⟨x.source, .reloc k j, .reloc rel.rela y r x.path⟩) (by rw [hl]; simp; exact .inr (.inl rfl)) rfl
  have : x = x' := h.unique hx R.file R.source
  subst this
  have hit := R.item
  simp only [Item.reloc.injEq] at hit
  obtain ⟨rfl, rfl⟩ := hit
  obtain ⟨rfl, rfl⟩ := relocs_inj hk (used_mem R.used).1
  have hsh := R.header
  rw [Nat.add_sub_cancel, S.header] at hsh
  cases hsh
  have hnm := R.name
  rw [S.name] at hnm
  cases hnm
  have hss := R.sym
  rw [hr.symbol] at hss
  cases hss
  obtain ⟨d, hp, hd⟩ := R.push
  rw [Nat.add_sub_cancel] at hp
  unfold SectionBytes at hd
  rw [if_neg h8] at hd
  obtain ⟨j2, s2, sec, n2, g1, g2, g3, g4⟩ := R.symbol
  obtain ⟨a1, b1, e1⟩ := List.append_of_mem hp
  refine ⟨y, j2, s2, sec, n2, sh, S.header, ⟨opsOf a1, sh, r, opsOf b1, x.path, ?_, ?_, ?_, ?_⟩,
    g1, g2, g3, g4⟩
  · rw [e1, opsOf_append, ← hd.2]; rfl
  · exact List.mem_map.2 ⟨_, by rw [hl]; exact List.mem_append_right _ List.mem_cons_self, rfl⟩
  · rw [h.offset_eq e e1]; rfl
  · unfold relocsIn opsOf
    rw [List.filterMap_map, List.pairwise_filterMap]
    have ho := h.once.2
    unfold otherCalls at ho
    rw [List.Nodup, List.pairwise_map, List.pairwise_filter] at ho
    refine ho.imp_of_mem fun {c c'} hcm hcm' hne => ?_
    intro b hb b' hb'
    obtain ⟨p1, e1⟩ := mem_relocsIn_call hb
    obtain ⟨p2, e2⟩ := mem_relocsIn_call hb'
    rw [hd.2] at hp
    obtain ⟨k1, j1, rel1, u1, r1, s1, i1⟩ := h.reloc_home hc hh hx S h8 hp hcm e1
    obtain ⟨k2, j2, rel2, u2, r2, s2, i2⟩ := h.reloc_home hc hh hx S h8 hp hcm' e2
    have hne := hne (by rw [i1]; rfl) (by rw [i2]; rfl)
    rw [s1, s2, i1, i2] at hne
    have := pairwise_ne (R := fun y z : Nat × Nat × Nat × InReloc => Disjoint (siteOf y.2.2.2.rela) (siteOf z.2.2.2.rela))
      (fun a b h => Or.symm h) hr.apart _ (List.mem_filter.2 ⟨u1, by simp⟩) _ (List.mem_filter.2 ⟨u2, by simp⟩) (by
        intro e
        simp only [Prod.mk.injEq] at e
        exact hne (by rw [e.1, e.2.2.1]))
    rw [r1, r2]
    exact this

/-- the symbol of a reference -/
theorem refersAt (h : Calls env l N loaded log) (hc : CleanFiles env l) {opts : Options} {w : Writer} (hh : Hist opts (opsOf log) w)
    (e : loaded = pre ++ x :: post) {i : Nat} {m : Name} {rel : InReloc} {s : Sym} (hr : Reference x i m rel s) :
    ∃ y j s' sec n, RefersAt (opsOf log) m (placeOf pre x m i + rel.r_offset) rel.rela y ∧
      (⟨x.source, .symbol j, .sym s' sec n x.path y⟩ : Call) ∈ log ∧ x.elf.syms[j]? = some s' ∧ x.elf.symName s'.st_name = some n ∧
      { s' with st_value := s.st_value } = s := by
  obtain ⟨y, j, s', sec, n, sh, _, ⟨a, sh', sr, b, path, h1⟩, h2⟩ := h.refersIn hc hh e hr
  exact ⟨y, j, s', sec, n, ⟨a, sh', _, sr, b, path, h1⟩, h2⟩

theorem refers (h : Calls env l N loaded log) {j : Nat} {s s' : Sym} {sec : Option SectionRef} {n n' : Name} {y : SymbolRef}
    (hm : (⟨x.source, .symbol j, .sym s' sec n' x.path y⟩ : Call) ∈ log) (hn' : x.elf.symName s'.st_name = some n')
    (e : { s' with st_value := s.st_value } = s) (hn : x.elf.symName s.st_name = some n) (h3 : s.st_info % 16 ≠ 3) : Refers (opsOf log) y n := by
  have e1 : s'.st_name = s.st_name := by rw [← e]
  have e2 : s'.st_info = s.st_info := by rw [← e]
  rw [e1, hn] at hn'
  cases hn'
  exact ⟨s', sec, x.path, List.mem_map.2 ⟨_, hm, rfl⟩, by rw [e2]; exact h3⟩

theorem not_imported (h : Calls env l (NeededIn env l) loaded log) {n : Name} (ho : OwnName env l n) : ¬ ImportedIn (opsOf log) n := by
  rintro ⟨a, s, path, d, b, e, _⟩
  obtain ⟨⟨h1, data, el, h2, h3, h4, h5⟩, q, hq, hu, ms, _, hw⟩ := h.dynsym (s := s) (n := n) (path := path) (r := d) (by rw [e]; simp)
  rcases ho with ho | ⟨x, hx, s', hs', hn, h3', h1', h0⟩
  · exact ho _ h1 _ _ h2 h3 _ h4 h5
  · obtain ⟨j, hj⟩ := List.getElem?_of_mem hs'
    have hk : (x.source, Item.symbol j) ∈ otherCalls q := by
      rw [hw, List.mem_flatMap]
      exact ⟨x, List.mem_append_left _ hx, List.mem_append_left _ (List.mem_map.2 ⟨j, List.mem_range.2 (List.getElem?_eq_some_iff.1 hj).1, rfl⟩)⟩
    obtain ⟨c, hc, ek⟩ := List.mem_map.1 hk
    have hcq := (List.mem_filter.1 hc).1
    obtain ⟨a', b', e'⟩ := List.append_of_mem (hq.subset hcq)
    have e1 : c.source = x.source := congrArg Prod.fst ek
    have e2 : c.item = .symbol j := congrArg Prod.snd ek
    have hxl : x ∈ loaded := by
      obtain ⟨ms', rfl, _⟩ := h.objects
      exact List.mem_append_left _ hx
    cases h.just a' c b' e' with
    | «section» => cases e2
    | symbol hx' hj' hn' hs =>
      cases e2
      have := h.unique hx' hxl e1
      subst this
      rw [hj] at hj'
      cases hj'
      rw [hn] at hn'
      cases hn'
      exact h0 (hu.undefined _ _ ⟨⟨_, _, List.mem_map.2 ⟨_, hcq, rfl⟩⟩, h3'⟩ h1')
    | reloc => cases e2
    | dynsym => cases e2
    | needed => cases e2

/-- a mention comes from a symbol of a file -/
theorem mention_call (h : Calls env l N loaded log) {a b : List Call} (el : log = a ++ b) {s : Sym} {sec : Option SectionRef} {n : Name}
    (hm : Mention (opsOf a) s sec n) : ∃ y ∈ loaded, ∃ j, SymbolOf y j s n ∧ (y.source, Item.symbol j) ∈ otherCalls a := by
  obtain ⟨⟨path, r, hop⟩, h3⟩ := hm
  obtain ⟨a1, c, b1, e, ec⟩ := mem_opsOf hop
  have := h.just a1 c (b1 ++ b) (by rw [el, e]; simp)
  cases this with
  | «section» => cases ec
  | symbol hx hj hn hs =>
    cases ec
    refine ⟨_, hx, _, ⟨hj, hn, h3⟩, ?_⟩
    rw [e, otherCalls_append]
    exact List.mem_append_right _ (by simp [otherCalls, Item.isOther])
  | reloc => cases ec
  | dynsym => cases ec
  | needed => cases ec

/-- the symbols handed over before a symbol -/
theorem symbols_before (h : Calls env l N loaded log) (e : loaded = pre ++ x :: post) {j : Nat} {op : Op} {a b : List Call}
    (hl : log = a ++ ⟨x.source, .symbol j, op⟩ :: b) (hj : j < x.elf.syms.length) {y : Loaded} (hy : y ∈ loaded) {j' : Nat}
    (hm : (y.source, Item.symbol j') ∈ otherCalls a) : y ∈ pre ∨ (y = x ∧ j' < j) := by
  have hx : x ∈ loaded := by rw [e]; simp
  have hkeys : x.otherKeys = (List.range j).map (fun j => (x.source, Item.symbol j)) ++
      (x.source, Item.symbol j) :: ((List.range' (j + 1) (x.elf.syms.length - (j + 1))).map (fun j => (x.source, Item.symbol j)) ++
        x.elf.usedRelocs.map fun y => (x.source, .reloc y.1 y.2.2.1)) := by
    unfold Loaded.otherKeys
    rw [show List.range x.elf.syms.length = List.range j ++ j :: List.range' (j + 1) (x.elf.syms.length - (j + 1)) from by
      rw [List.range_eq_range', List.range_eq_range', ← List.range'_succ, show x.elf.syms.length - (j + 1) + 1 = x.elf.syms.length - j by omega]
      have := List.range'_append (s := 0) (m := j) (n := x.elf.syms.length - j) (step := 1)
      simp only [Nat.zero_add, Nat.one_mul] at this
      rw [this]
      congr 1; omega]
    simp
  have hsplit : otherCalls a ++ (x.source, Item.symbol j) :: otherCalls b =
      (pre.flatMap Loaded.otherKeys ++ (List.range j).map (fun j => (x.source, Item.symbol j))) ++
      (x.source, Item.symbol j) :: ((List.range' (j + 1) (x.elf.syms.length - (j + 1))).map (fun j => (x.source, Item.symbol j)) ++
        x.elf.usedRelocs.map (fun y => (x.source, Item.reloc y.1 y.2.2.1)) ++ post.flatMap Loaded.otherKeys) := by
    have h1 := h.others
    rw [hl, otherCalls_append] at h1
    rw [e, List.flatMap_append, List.flatMap_cons, hkeys] at h1
    simpa [otherCalls, Item.isOther] using h1
  have hnd := h.once.2
  rw [hl, otherCalls_append] at hnd
  have hnd : (otherCalls a ++ (x.source, Item.symbol j) :: otherCalls b).Nodup := by simpa [otherCalls, Item.isOther] using hnd
  rw [(split_unique hsplit hnd).1, List.mem_append] at hm
  rcases hm with hm | hm
  · obtain ⟨z, hz, hm⟩ := List.mem_flatMap.1 hm
    left
    have hs := Linker.keys_source (.inr hm)
    have := h.unique hy (by rw [e]; exact List.mem_append_left _ hz) hs
    rw [this]; exact hz
  · right
    obtain ⟨j2, hj2, e2⟩ := List.mem_map.1 hm
    simp only [Prod.mk.injEq, Item.symbol.injEq] at e2
    obtain ⟨e2, rfl⟩ := e2
    exact ⟨(h.unique hx hy e2).symm, List.mem_range.1 hj2⟩

/-- the first section of its name -/
theorem first_push (h : Calls env l N loaded log) (e : loaded = pre ++ x :: post) {i : Nat} {n : Name} {sh : SectionHeader} {d : Option Bytes} {r : SectionRef}
    {a b : List Call} (hl : log = a ++ ⟨x.source, .section i, .push n sh d r⟩ :: b) (hf : FirstOf pre x n i) : pushesOf n (opsOf a) = [] := by
  have key : ∀ sh d r, Op.push n sh d r ∉ opsOf a := by
    intro sh' d' r' hop
    obtain ⟨a1, c, b1, ea, ec⟩ := mem_opsOf hop
    have hj := h.just a1 c (b1 ++ ⟨x.source, .section i, .push n sh d r⟩ :: b) (by rw [hl, ea]; simp)
    have hin : c.item.isSection = true → (c.source, c.item) ∈ sectionCalls a := by
      intro hi
      rw [ea, sectionCalls_append]
      exact List.mem_append_right _ (by simp [sectionCalls, hi])
    cases hj with
    | @«section» y i' sh2 n2 d2 r2 hy hi ht hn hd =>
      cases ec
      have hin := hin rfl
      have hmem : (sh', i') ∈ y.elf.named n := List.mem_filter.2 ⟨ElfFile.mem_copied.2 ⟨hi, ht⟩, by simpa using hn⟩
      rw [h.sections_before e hl, List.mem_append] at hin
      rcases hin with hin | hin
      · obtain ⟨z, hz, hm⟩ := List.mem_flatMap.1 hin
        have hs := Linker.keys_source (.inl hm)
        have := h.unique hy (by rw [e]; exact List.mem_append_left _ hz) hs
        subst this
        rw [hf.1 _ hz] at hmem
        cases hmem
      · obtain ⟨t, ht2, e2⟩ := List.mem_map.1 hin
        simp only [Prod.mk.injEq, Item.section.injEq] at e2
        have := h.unique (by rw [e]; simp) hy e2.1
        subst this
        have h1 := hf.2 _ hmem
        have h2 := (List.mem_filter.1 ht2).2
        simp only [decide_eq_true_eq] at h2
        omega
    | symbol => cases ec
    | reloc => cases ec
    | dynsym => cases ec
    | needed => cases ec
  clear hl
  generalize opsOf a = ops at key
  induction ops with
  | nil => rfl
  | cons op ops ih =>
    have ih := ih fun sh d r hm => key sh d r (by simp [hm])
    cases op with
    | push m sh d r =>
      rw [pushesOf, if_neg]
      · exact ih
      · rintro rfl; exact key sh d r (by simp)
    | _ => exact ih

/-- each symbol is handed over after the sections of its file -/
theorem symbol_just (h : Calls env l N loaded log) (hx : x ∈ loaded) {j : Nat} {s : Sym} {a b : List Call} {n : Name} {sec : Option SectionRef} {y : SymbolRef}
    {p : Path} (e : log = a ++ ⟨x.source, .symbol j, .sym s sec n p y⟩ :: b) : x.elf.symName s.st_name = some n ∧
      (∀ r, sec = some r ↔ SectionAt a x.source s.st_shndx r) ∧ ∀ i ∈ x.elf.copied.map (·.2), ∃ r, SectionAt a x.source i r := by
  have hj1 := h.just a _ b e
  obtain ⟨src, hsrc⟩ : ∃ src, src = x.source := ⟨_, rfl⟩
  rw [← hsrc] at hj1 ⊢
  generalize hc2 : (⟨src, .symbol j, .sym s sec n p y⟩ : Call) = c2 at hj1
  cases hj1 with
  | «section» => cases hc2
  | symbol hx' hj' hn hs hb =>
    simp only [Call.mk.injEq, Item.symbol.injEq, Op.sym.injEq] at hc2
    obtain ⟨h1, rfl, rfl, rfl, rfl, _, _⟩ := hc2
    have := h.unique hx' hx (by rw [← h1, hsrc])
    subst this
    rw [h1]
    exact ⟨hn, hs, hb⟩
  | reloc => cases hc2
  | dynsym => cases hc2
  | needed => cases hc2

theorem symbol_after (h : Calls env l N loaded log) (hx : x ∈ loaded) {j : Nat} {s : Sym} (hj : x.elf.syms[j]? = some s) :
    ∃ a b n sec y, log = a ++ ⟨x.source, .symbol j, .sym s sec n x.path y⟩ :: b ∧ x.elf.symName s.st_name = some n ∧
      (∀ r, sec = some r ↔ SectionAt a x.source s.st_shndx r) ∧ ∀ i ∈ x.elf.copied.map (·.2), ∃ r, SectionAt a x.source i r := by
  obtain ⟨a, b, n, sec, y, e, _⟩ := h.symbol_call hx hj
  exact ⟨a, b, n, sec, y, e, h.symbol_just hx e⟩

theorem push_call (h : Calls env l N loaded log) (hx : x ∈ loaded) {i : Nat} {n : Name} {sh : SectionHeader} {d : Option Bytes} {r : SectionRef}
    (hm : (⟨x.source, .section i, .push n sh d r⟩ : Call) ∈ log) :
    x.elf.sectionHeaders[i]? = some sh ∧ sh.sh_type ∉ auxiliaryTypes ∧ x.elf.secName sh.sh_name = some n ∧ SectionBytes x.data sh d := by
  obtain ⟨a, b, e⟩ := List.append_of_mem hm
  have hj1 := h.just a _ b e
  obtain ⟨src, hsrc⟩ : ∃ src, src = x.source := ⟨_, rfl⟩
  rw [← hsrc] at hj1
  generalize hc2 : (⟨src, .section i, .push n sh d r⟩ : Call) = c2 at hj1
  cases hj1 with
  | «section» hx' hi ht hn hd =>
    cases hc2
    have := h.unique hx' hx hsrc
    subst this
    exact ⟨hi, ht, hn, hd⟩
  | symbol => cases hc2
  | reloc => cases hc2
  | dynsym => cases hc2
  | needed => cases hc2

/-- there is one call for each section -/
theorem section_once (h : Calls env l N loaded log) {c c' : Call} (hc : c ∈ log) (hc' : c' ∈ log) (hi : c.item.isSection = true) (e : (c.source, c.item) = (c'.source, c'.item)) :
    c = c' := by
  have hnd := h.once.1
  unfold sectionCalls at hnd
  rw [List.Nodup, List.pairwise_map] at hnd
  have hi' : c'.item.isSection = true := by
    have e2 : c.item = c'.item := (congrArg Prod.snd e :)
    rw [← e2]; exact hi
  exact Classical.byContradiction fun hne =>
    pairwise_ne (fun _ _ h => Ne.symm h) hnd c (List.mem_filter.2 ⟨hc, hi⟩) c' (List.mem_filter.2 ⟨hc', hi'⟩) hne e

/-- what `Definition` says about the calls -/
theorem definition_call (h : Calls env l N loaded log) (hc : CleanFiles env l) (e : loaded = pre ++ x :: post) {j : Nat} {s : Sym} {n m : Name}
    {sh : SectionHeader} (hd : Definition pre x post j s n) (S : SectionOf x s.st_shndx sh m) :
    ∃ A B a b sr d y, log = A ++ ⟨x.source, .symbol j, .sym s (some sr) n x.path y⟩ :: B ∧
      log = a ++ ⟨x.source, .section s.st_shndx, .push m sh d sr⟩ :: b ∧ SectionBytes x.data sh d ∧
      (∀ s' sec' sr', Mention (opsOf log) s' sec' n → Attached (opsOf log) s' sec' sr' → sr' = sr) ∧
      ((∀ s' sec', Mention (opsOf log) s' sec' n → s'.st_value = s.st_value) ∨ Decides (opsOf A) s sr n (opsOf B)) := by
  have hx : x ∈ loaded := by rw [e]; simp
  obtain ⟨A, B, n', sec, y, hl, hn', hsec, hb⟩ := h.symbol_after hx hd.symbol.1
  rw [hd.symbol.2.1] at hn'
  cases hn'
  obtain ⟨sr, hsr⟩ := hb s.st_shndx (mem_copied.2 ⟨sh, S.header, S.copied⟩)
  have hs1 := (hsec sr).2 hsr
  subst hs1
  obtain ⟨m', sh', d, hp⟩ := hsr
  have hpl : (⟨x.source, .section s.st_shndx, .push m' sh' d sr⟩ : Call) ∈ log := by rw [hl]; exact List.mem_append_left _ hp
  obtain ⟨hh1, hh2, hh3, hh4⟩ := h.push_call hx hpl
  rw [S.header] at hh1
  cases hh1
  rw [S.name] at hh3
  cases hh3
  obtain ⟨a, b, ea⟩ := List.append_of_mem hpl
  have honly : ∀ s' sec' sr', Mention (opsOf log) s' sec' n → Attached (opsOf log) s' sec' sr' → sr' = sr := by
    intro s' sec' sr' hm hat
    obtain ⟨⟨path, r, hop⟩, h3⟩ := hm
    obtain ⟨c, hcm, ec⟩ := List.mem_map.1 hop
    by_cases h0 : s'.st_shndx = 0
    · exact absurd hat (h.undefined_unattached hc ⟨⟨path, r, hop⟩, h3⟩ h0 sr')
    · obtain ⟨a1, b1, e1⟩ := List.append_of_mem hcm
      have hj := h.just a1 c b1 e1
      cases hj with
      | «section» => cases ec
      | symbol hy hj2 hn2 hs2 =>
        cases ec
        obtain ⟨h1, h2⟩ := hd.only _ (by rw [← e]; exact hy) _ _ ⟨hj2, hn2, h3⟩ h0
        subst h1 h2
        rw [hd.symbol.1] at hj2
        cases hj2
        rw [hat.1] at hs2
        have h4 := (hs2 sr').1 rfl
        obtain ⟨n4, sh4, d4, g4⟩ := h4
        have hsub : ∀ c ∈ a1, c ∈ log := fun c hc => by rw [e1]; exact List.mem_append_left _ hc
        have := h.section_once (hsub _ g4) hpl rfl rfl
        simp only [Call.mk.injEq, Op.push.injEq, true_and] at this
        exact this.2.2.2
      | reloc => cases ec
      | dynsym => cases ec
      | needed => cases ec
  have hment : ∀ {L L' : List Call}, log = L ++ L' → ∀ {s' sec'}, Mention (opsOf L) s' sec' n → Mention (opsOf log) s' sec' n := by
    rintro L L' eL s' sec' ⟨⟨p, r, hop⟩, h3⟩
    exact ⟨⟨p, r, by rw [eL, opsOf_append]; exact List.mem_append_left _ hop⟩, h3⟩
  have hall : ∀ {s' sec'}, Mention (opsOf log) s' sec' n → ∃ y ∈ pre ++ x :: post, ∃ j', SymbolOf y j' s' n := by
    intro s' sec' hm
    obtain ⟨y, hy, j', hj', _⟩ := h.mention_call (a := log) (b := []) (by simp) hm
    exact ⟨y, by rw [← e]; exact hy, j', hj'⟩
  have hlate : ∀ {op : Call} {s' : Sym} {sec' : Option SectionRef}, op = ⟨x.source, .symbol j, .sym s (some sr) n x.path y⟩ → Mention (opsOf A ++ opsOf B) s' sec' n → Mention (opsOf log) s' sec' n := by
    rintro op s' sec' rfl ⟨⟨p, r, hop⟩, h3⟩
    refine ⟨⟨p, r, ?_⟩, h3⟩
    rw [hl, opsOf_append]
    rcases List.mem_append.1 hop with h | h
    · exact List.mem_append_left _ h
    · exact List.mem_append_right _ (List.mem_cons_of_mem _ h)
  refine ⟨A, B, a, b, sr, d, y, hl, ea, hh4, honly, ?_⟩
  rcases hd.kept with hk | ⟨hk1, hk2, hk3⟩
  · left
    intro s' sec' hm
    obtain ⟨y, hy, j', hj'⟩ := hall hm
    exact hk y hy j' s' hj'
  · right
    refine ⟨hd.symbol.2.2, hd.defined, hd.absolute, (hk1 x (by simp) _ _ hd.symbol).1, ?_, ?_, ?_⟩
    · intro s' sec' hm
      obtain ⟨z, hz, j', hj', hbef⟩ := h.mention_call hl hm
      refine ⟨(hk1 z (by rw [← e]; exact hz) _ _ hj').1, ?_⟩
      rcases h.symbols_before e hl (List.getElem?_eq_some_iff.1 hd.symbol.1).1 hz hbef with h1 | ⟨h1, h2⟩
      · exact hk2 z h1 _ _ hj'
      · rw [h1] at hj'
        exact hk3 _ _ hj' h2
    · rintro s' sec' ⟨⟨p, r, hop⟩, h3⟩
      obtain ⟨z, hz, j', hj'⟩ := hall (hlate rfl ⟨⟨p, r, List.mem_append_right _ hop⟩, h3⟩)
      exact hk1 z hz _ _ hj'
    · intro s' sec' sr' hm hat
      refine honly s' sec' sr' (hlate rfl hm) ⟨hat.1, hat.2.1, fun sh0 d0 hp0 => hat.2.2 sh0 d0 ?_⟩
      rw [hl, opsOf_append] at hp0
      rcases List.mem_append.1 hp0 with h1 | h1
      · exact List.mem_append_left _ h1
      · rcases List.mem_cons.1 h1 with h1 | h1
        · cases h1
        · exact List.mem_append_right _ h1

end Calls
end Dld
