import Verif.Lemmas.LinkGood
/-! # Each item of each file is handed over -/
namespace Dld
open Writer Spec StringTable

variable {env : Env} {l : Linker} {N : List Call → Name → Prop} {loaded : List Loaded} {log : List Call}

theorem mem_objectsOf {x : Loaded} : x ∈ objectsOf env l ↔ ∃ (i : Nat) (p : Path), l.objects[i]? = some p ∧ x.source = .object i ∧ x.path = p ∧
    env.read p = some x.data ∧ env.parseElf x.data = some x.elf ∧ x.elf.isObjectFile = true := by
  unfold objectsOf
  rw [List.mem_filterMap]
  constructor
  · rintro ⟨⟨p, i⟩, hp, hx⟩
    simp only [Option.bind_eq_some_iff] at hx
    obtain ⟨d, hd, e, he, hx⟩ := hx
    split at hx
    · next ho =>
      cases hx
      exact ⟨i, p, (List.mem_zipIdx_iff_getElem?.1 hp), rfl, rfl, hd, he, ho⟩
    · cases hx
  · rintro ⟨i, p, hi, h1, h2, h3, h4, h5⟩
    refine ⟨(p, i), List.mem_zipIdx_iff_getElem?.2 hi, ?_⟩
    simp only [h3, Option.bind_some, h4, h5, if_true]
    cases x
    cases h1
    cases h2
    rfl

namespace Calls

/-- the source determines the file -/
theorem unique (h : Calls env l N loaded log) {x y : Loaded} (hx : x ∈ loaded) (hy : y ∈ loaded) (e : x.source = y.source) : x = y := by
  obtain ⟨ms, rfl, hm⟩ := h.objects
  have key : ∀ x ∈ objectsOf env l, ∀ y ∈ ms, x.source ≠ y.source := by
    intro x hx y hy e
    obtain ⟨i, p, _, h1, _⟩ := mem_objectsOf.1 hx
    cases hm y hy with
    | mk => rw [h1] at e; cases e
  rcases List.mem_append.1 hx with hx | hx <;> rcases List.mem_append.1 hy with hy | hy
  · obtain ⟨i, p, hi, h1, h2, h3, h4, _⟩ := mem_objectsOf.1 hx
    obtain ⟨i', p', hi', h1', h2', h3', h4', _⟩ := mem_objectsOf.1 hy
    rw [h1, h1'] at e
    cases e
    rw [hi] at hi'
    cases hi'
    rw [h3] at h3'
    have hd := Option.some.inj h3'
    rw [← hd, h4] at h4'
    have he := Option.some.inj h4'
    cases x; cases y
    simp only at h1 h1' h2 h2' hd he
    subst h1 h1' h2 h2' hd he
    rfl
  · exact absurd e (key x hx y hy)
  · exact absurd e.symm (key y hy x hx)
  · have ha := hm x hx
    have hb := hm y hy
    cases ha with
    | mk hp hd ha hn hm he ho hs hq hu hl =>
      cases hb with
      | mk hp' hd' ha' hn' hm' he' ho' hs' hq' hu' hl' =>
        cases e
        rw [hd] at hd'
        cases hd'
        rw [ha] at ha'
        cases ha'
        rw [hm] at hm'
        cases hm'
        rw [he] at he'
        cases he'
        rfl

theorem call_of_key (h : Calls env l N loaded log) {k : Source × Item} (hk : k ∈ sectionCalls log ∨ k ∈ otherCalls log) :
    ∃ a c b, log = a ++ c :: b ∧ c.source = k.1 ∧ c.item = k.2 := by
  rcases hk with hk | hk <;>
    (obtain ⟨c, hc, rfl⟩ := List.mem_map.1 hk
     obtain ⟨a, b, e⟩ := List.append_of_mem (List.mem_filter.1 hc).1
     exact ⟨a, c, b, e, rfl, rfl⟩)

/-- each symbol is handed over -/
theorem symbol_call (h : Calls env l N loaded log) {x : Loaded} (hx : x ∈ loaded) {j : Nat} {s : Sym} (hj : x.elf.syms[j]? = some s) :
    ∃ a b n sec y, log = a ++ ⟨x.source, .symbol j, .sym s sec n x.path y⟩ :: b ∧ x.elf.symName s.st_name = some n ∧
      ∀ r, sec = some r ↔ SectionAt a x.source s.st_shndx r := by
  have hk : (x.source, Item.symbol j) ∈ otherCalls log := by
    rw [h.others, List.mem_flatMap]
    refine ⟨x, hx, List.mem_append_left _ (List.mem_map.2 ⟨j, ?_, rfl⟩)⟩
    exact List.mem_range.2 (List.getElem?_eq_some_iff.1 hj).1
  obtain ⟨a, c, b, e, h1, h2⟩ := h.call_of_key (.inr hk)
  cases h.just a c b e with
  | «section» hx' hi ht hn hd => cases h2
  | symbol hx' hj' hn hs =>
    cases h2
    have := h.unique hx' hx h1
    subst this
    rw [hj] at hj'
    cases hj'
    exact ⟨a, b, _, _, _, e, hn, hs⟩
  | reloc hx' hk h0 hs hr hy => cases h2
  | dynsym hp hd he hj hn hq hm => cases h2
  | needed hf => cases h2

/-- each section that is copied is handed over -/
theorem section_call (h : Calls env l N loaded log) {x : Loaded} (hx : x ∈ loaded) {i : Nat} {sh : SectionHeader}
    (hi : x.elf.sectionHeaders[i]? = some sh) (ht : sh.sh_type ∉ auxiliaryTypes) :
    ∃ a b n d r, log = a ++ ⟨x.source, .section i, .push n sh d r⟩ :: b ∧ x.elf.secName sh.sh_name = some n ∧ SectionBytes x.data sh d := by
  have hk : (x.source, Item.section i) ∈ sectionCalls log := by
    rw [h.sections, List.mem_flatMap]
    refine ⟨x, hx, List.mem_map.2 ⟨(sh, i), ?_, rfl⟩⟩
    unfold ElfFile.copied
    rw [List.mem_filter, List.mem_zipIdx_iff_getElem?]
    exact ⟨hi, by simpa using ht⟩
  obtain ⟨a, c, b, e, h1, h2⟩ := h.call_of_key (.inl hk)
  cases h.just a c b e with
  | «section» hx' hi' ht hn hd =>
    cases h2
    have := h.unique hx' hx h1
    subst this
    rw [hi] at hi'
    cases hi'
    exact ⟨a, b, _, _, _, e, hn, hd⟩
  | symbol hx' hj' hn hs => cases h2
  | reloc hx' hk h0 hs hr hy => cases h2
  | dynsym hp hd he hj hn hq hm => cases h2
  | needed hf => cases h2

theorem mem_copied {e : ElfFile} {i : Nat} : i ∈ e.copied.map (·.2) ↔ ∃ sh, e.sectionHeaders[i]? = some sh ∧ sh.sh_type ∉ auxiliaryTypes := by
  unfold ElfFile.copied
  rw [List.mem_map]
  constructor
  · rintro ⟨⟨sh, j⟩, hm, rfl⟩
    rw [List.mem_filter, List.mem_zipIdx_iff_getElem?] at hm
    exact ⟨sh, hm.1, by simpa using hm.2⟩
  · rintro ⟨sh, h1, h2⟩
    exact ⟨(sh, i), by rw [List.mem_filter, List.mem_zipIdx_iff_getElem?]; exact ⟨h1, by simpa using h2⟩, rfl⟩

theorem relocs_inj {e : ElfFile} {k j p1 p2 : Nat} {r1 r2 : InReloc} (h1 : (k, p1, j, r1) ∈ e.relocs) (h2 : (k, p2, j, r2) ∈ e.relocs) :
    p1 = p2 ∧ r1 = r2 := by
  unfold ElfFile.relocs at h1 h2
  simp only [List.mem_flatMap, List.mem_map, Prod.mk.injEq] at h1 h2
  obtain ⟨⟨⟨q, rs⟩, k1⟩, hm, ⟨r, i⟩, hi, rfl, rfl, rfl, rfl⟩ := h1
  obtain ⟨⟨⟨q', rs'⟩, k2⟩, hm', ⟨r', i'⟩, hi', e1, rfl, e2, rfl⟩ := h2
  rw [List.mem_zipIdx_iff_getElem?] at hm hm' hi hi'
  simp only at hm hm' hi hi' e1 e2
  subst e1 e2
  rw [hm] at hm'
  cases hm'
  rw [hi] at hi'
  cases hi'
  exact ⟨rfl, rfl⟩

/-- each relocation that has a symbol and whose section comes after one that is copied is handed over -/
theorem reloc_call (h : Calls env l N loaded log) {x : Loaded} (hx : x ∈ loaded) {k pos j : Nat} {rel : InReloc} {sh : SectionHeader}
    (hr : (k, pos, j, rel) ∈ x.elf.relocs) (h0 : rel.r_sym ≠ 0) (hi : x.elf.sectionHeaders[pos - 1]? = some sh)
    (ht : sh.sh_type ∉ auxiliaryTypes) :
    ∃ a b s y r, log = a ++ ⟨x.source, .reloc k j,
        .reloc { r_offset := rel.r_offset, r_info := rel.r_sym * 2 ^ 32 + rel.r_type, r_addend := rel.r_addend.getD 0 } y r x.path⟩ :: b ∧
      x.elf.syms[rel.r_sym]? = some s ∧ SectionAt a x.source (pos - 1) r ∧ SymbolAt a x.source s y := by
  have hk : (x.source, Item.reloc k j) ∈ otherCalls log := by
    rw [h.others, List.mem_flatMap]
    refine ⟨x, hx, List.mem_append_right _ (List.mem_map.2 ⟨(k, pos, j, rel), ?_, rfl⟩)⟩
    unfold ElfFile.usedRelocs
    rw [List.mem_filter]
    refine ⟨hr, ?_⟩
    simp only [decide_eq_true_eq]
    exact ⟨h0, mem_copied.2 ⟨sh, hi, ht⟩⟩
  obtain ⟨a, c, b, e, h1, h2⟩ := h.call_of_key (.inr hk)
  cases h.just a c b e with
  | «section» hx' hi' ht hn hd => cases h2
  | symbol hx' hj' hn hs => cases h2
  | reloc hx' hk' h0' hs hr' hy =>
    cases h2
    have := h.unique hx' hx h1
    subst this
    obtain ⟨rfl, rfl⟩ := relocs_inj hk' hr
    exact ⟨a, b, _, _, _, e, hs, hr', hy⟩
  | dynsym hp hd he hj hn hq hm => cases h2
  | needed hf => cases h2

/-- mentions of names by the files and by the calls -/
theorem mention_iff (h : Calls env l N loaded log) {s : Sym} {n : Name} : MentionedIn loaded s n ↔ ∃ sec, Mention (opsOf log) s sec n := by
  constructor
  · rintro ⟨x, hx, hs, hn, h3⟩
    obtain ⟨j, hj⟩ := List.getElem?_of_mem hs
    obtain ⟨a, b, n', sec, y, e, hn', _⟩ := h.symbol_call hx hj
    rw [hn] at hn'
    cases hn'
    exact ⟨sec, ⟨_, y, List.mem_map.2 ⟨_, by rw [e]; exact List.mem_append_right _ List.mem_cons_self, rfl⟩⟩, h3⟩
  · rintro ⟨sec, ⟨path, r, hop⟩, h3⟩
    obtain ⟨x, hx, h1, h2, _⟩ := h.sym hop
    exact ⟨x, hx, h1, h2, h3⟩

/-- undefined symbols are attached to no section -/
theorem undefined_unattached (h : Calls env l N loaded log) (hc : CleanFiles env l) {s : Sym} {sec : Option SectionRef} {n : Name}
    (hm : Mention (opsOf log) s sec n) (h0 : s.st_shndx = 0) (sr : SectionRef) : ¬ Attached (opsOf log) s sec sr := by
  rintro ⟨rfl, _, hnull⟩
  obtain ⟨⟨path, r, hop⟩, h3⟩ := hm
  obtain ⟨a, c, b, e, hc'⟩ := mem_opsOf hop
  cases h.just a c b e with
  | «section» hx' hi' ht hn hd => cases hc'
  | symbol hx hj hn hs hb =>
    cases hc'
    obtain ⟨m, sh, d, hmem⟩ := (hs sr).1 rfl
    rw [h0] at hmem
    rename_i x j
    obtain ⟨src, hsrc⟩ : ∃ src, src = x.source := ⟨_, rfl⟩
    rw [← hsrc] at hmem
    obtain ⟨a1, b1, e1⟩ := List.append_of_mem hmem
    have hj1 := h.just a1 _ (b1 ++ _ :: b) (by rw [e, e1, List.append_assoc]; rfl)
    cases hj1 with
    | «section» hx' hi' ht' hn' hd' =>
      have := hc.first _ _ (h.input hx') hi'
      rw [hn'] at this
      cases this
      exact hnull sh d (List.mem_map.2 ⟨_, by rw [e]; exact List.mem_append_left _ hmem, rfl⟩)
  | reloc hx' hk h0 hs hr hy => cases hc'
  | dynsym hp hd he hj hn hq hm => cases hc'
  | needed hf => cases hc'

end Calls
end Dld
