import Verif.Lemmas.Sound
import Verif.Lemmas.Progress8
import Verif.Lemmas.Fits3
import Verif.Lemmas.Listed
/-! # The calls for sound files are well-formed -/
namespace Dld
open Writer Spec StringTable SymbolTable

variable {env : Env} {l : Linker} {opts : Options} {ops : List Op} {w w' : Writer}

/-! ### Sections with data have chunks of their own -/

/-- a push of data returns a new chunk -/
theorem Hist.push_fresh (h : Hist opts ops w) {n : Name} {sh : SectionHeader} {d : Bytes} {r : SectionRef}
    (hp : w.pushSection n sh (some d) = .ok (w', r)) : w.chunkAt r = none := by
  obtain ⟨w0, pn, h0, hW⟩ := h.winv
  unfold Writer.pushSection at hp
  simp only at hp
  split at hp
  · cases hp
    have hnone : w.sections.find? (fun s => s.ptr == w.nextPtr) = none := by
      rw [List.find?_eq_none]
      intro s hs e
      have e : s.ptr = w.nextPtr := by simpa using e
      have : s.ptr ∈ w.sections.map (·.ptr) := List.mem_map_of_mem hs
      rw [hW.ptrs h0, List.mem_append, List.mem_range'] at this
      rw [hW.next] at e
      rcases this with h1 | ⟨i, h1, h2⟩
      · have := (baseIdents_ptr opts.hashStyle).2 _ h1; omega
      · omega
    unfold chunkAt
    rw [hnone]; rfl
  · split at hp
    · cases hp
    · next s hs =>
      cases hp
      unfold chunkAt
      simp only []
      cases hf : w.sections.find? (fun t => t.ptr == s.ptr) with
      | none => rfl
      | some t =>
        have ht : t.ptr = s.ptr := by simpa using List.find?_some hf
        have := eq_of_ptr (hW.ptrs_nodup h0) (List.mem_of_find?_eq_some hf) (List.mem_of_getElem? hs) ht
        subst this
        exact List.getElem?_eq_none (Nat.le_refl _)

/-- two pushes do not return the same chunk, if the later one has data -/
theorem Hist.push_apart (h : Hist opts ops w) {a b : List Op} {n n' : Name} {sh sh' : SectionHeader} {d : Bytes} {d' : Option Bytes} {r : SectionRef}
    (e : ops = a ++ Op.push n sh (some d) r :: b) (hm : Op.push n' sh' d' r ∈ a) : False := by
  obtain ⟨w1, w2, h1, hs, _⟩ := h.split e
  obtain ⟨⟨c, hc, _⟩, _⟩ := h1.cinv.push _ _ _ _ hm
  cases hs with
  | push hp => rw [h1.push_fresh hp] at hc; cases hc

theorem Hist.push_call_inj {log : List Call} (h : Hist opts (opsOf log) w) {c c' : Call} (hc : c ∈ log) (hc' : c' ∈ log) {n n' : Name} {sh sh' : SectionHeader}
    {d d' : Bytes} {r : SectionRef} (e : c.op = .push n sh (some d) r) (e' : c'.op = .push n' sh' (some d') r) : c = c' := by
  obtain ⟨a, b, rfl⟩ := List.append_of_mem hc
  rcases List.mem_append.1 hc' with h1 | h1
  · exact (h.push_apart (a := opsOf a) (b := opsOf b) (by rw [opsOf_append, ← e]; rfl) (d' := some d') (List.mem_map.2 ⟨c', h1, e'⟩)).elim
  · rcases List.mem_cons.1 h1 with h1 | h1
    · exact h1.symm
    · obtain ⟨b1, b2, rfl⟩ := List.append_of_mem h1
      refine (h.push_apart (a := opsOf (a ++ c :: b1)) (b := opsOf b2) (n := n') (sh := sh') (d := d') (r := r) (n' := n) (sh' := sh) (d' := some d) ?_
        (List.mem_map.2 ⟨c, by simp, e⟩)).elim
      rw [← e', show a ++ c :: (b1 ++ c' :: b2) = (a ++ c :: b1) ++ c' :: b2 by simp, opsOf_append]
      rfl

/-! ### The calls -/

theorem pairwise_ne {α : Type} {R : α → α → Prop} (hs : ∀ a b, R a b → R b a) {l : List α} (h : l.Pairwise R) : ∀ a ∈ l, ∀ b ∈ l, a ≠ b → R a b := by
  induction l with
  | nil => intro a ha; cases ha
  | cons x l ih =>
    rw [List.pairwise_cons] at h
    intro a ha b hb hne
    rcases List.mem_cons.1 ha with h1 | ha <;> rcases List.mem_cons.1 hb with h2 | hb
    · rw [h1, h2] at hne; exact absurd rfl hne
    · rw [h1]; exact h.1 b hb
    · rw [h2]; exact hs _ _ (h.1 a ha)
    · exact ih h.2 a ha b hb hne

theorem Apart.symm {a b : Nat × Nat} (h : Apart a b) : Apart b a := Or.symm h

namespace Calls
variable {N : List Call → Name → Prop} {loaded : List Loaded} {log : List Call} {F : List Nat} {V K : Nat}

theorem inputAt (h : Calls env l N loaded log) {x : Loaded} (hx : x ∈ loaded) : InputAt env l x.path x.data x.elf := by
  obtain ⟨ms, rfl, hm⟩ := h.objects
  rcases List.mem_append.1 hx with hx | hx
  · obtain ⟨i, p, hi, _, h2, h3, h4, h5⟩ := mem_objectsOf.1 hx
    rw [h2]
    exact .object (List.mem_of_getElem? hi) h3 h4 h5
  · cases hm x hx with
    | mk hp hd ha hn hm he ho hs hq hu hl => exact .member hp hd ha hn hm he ho

/-- what is behind a relocation -/
structure RelocCall (loaded : List Loaded) (log : List Call) (c : Call) (rela : Rela) (y : SymbolRef) (sr : SectionRef) (x : Loaded) (k pos j : Nat) (rel : InReloc)
    (s : Sym) (sh : SectionHeader) (n : Name) : Prop where
  file : x ∈ loaded
  source : c.source = x.source
  item : c.item = .reloc k j
  rela : rela = rel.rela
  used : (k, pos, j, rel) ∈ x.elf.usedRelocs
  sym : x.elf.syms[rel.r_sym]? = some s
  header : x.elf.sectionHeaders[pos - 1]? = some sh
  copied : sh.sh_type ∉ auxiliaryTypes
  name : x.elf.secName sh.sh_name = some n
  push : ∃ d, (⟨x.source, .section (pos - 1), .push n sh d sr⟩ : Call) ∈ log ∧ SectionBytes x.data sh d
  symbol : ∃ j' s' sec m, (⟨x.source, .symbol j', .sym s' sec m x.path y⟩ : Call) ∈ log ∧ x.elf.syms[j']? = some s' ∧ x.elf.symName s'.st_name = some m ∧
    { s' with st_value := s.st_value } = s

theorem relocCall (h : Calls env l N loaded log) {c : Call} (hc : c ∈ log) {rela : Rela} {y : SymbolRef} {sr : SectionRef} {path : Path}
    (e : c.op = .reloc rela y sr path) : ∃ x k pos j rel s sh n, RelocCall loaded log c rela y sr x k pos j rel s sh n := by
  obtain ⟨a, b, hl⟩ := List.append_of_mem hc
  cases h.just a c b hl with
  | «section» hx hi ht hn hd => cases e
  | symbol hx hj hn hs => cases e
  | @reloc x k j pos rel s y r hx hk h0 hs hr hy =>
    cases e
    obtain ⟨n, sh, d, hm⟩ := hr
    obtain ⟨src, hsrc⟩ : ∃ src, src = x.source := ⟨_, rfl⟩
    have hml : (⟨x.source, .section (pos - 1), .push n sh d sr⟩ : Call) ∈ log := by rw [hl]; exact List.mem_append_left _ hm
    obtain ⟨a1, b1, e1⟩ := List.append_of_mem hml
    have hj1 := h.just a1 _ b1 e1
    rw [← hsrc] at hj1
    have hsec : x.elf.sectionHeaders[pos - 1]? = some sh ∧ sh.sh_type ∉ auxiliaryTypes ∧ x.elf.secName sh.sh_name = some n ∧ SectionBytes x.data sh d := by
      generalize hc2 : (⟨src, .section (pos - 1), .push n sh d sr⟩ : Call) = c2 at hj1
      cases hj1 with
      | @«section» x' i sh' n' d' r' hx' hi' ht' hn' hd' =>
        cases hc2
        have := h.unique hx' hx hsrc
        subst this
        exact ⟨hi', ht', hn', hd'⟩
      | symbol hx hj hn hs => cases hc2
      | reloc hx hk h0 hs hr hy => cases hc2
      | dynsym hp hd he hj hn hq hm => cases hc2
      | needed hf => cases hc2
    obtain ⟨j', s', sec, m, p, hm2, hs'⟩ := hy
    have hml2 : (⟨x.source, .symbol j', .sym s' sec m p y⟩ : Call) ∈ log := by rw [hl]; exact List.mem_append_left _ hm2
    obtain ⟨a2, b2, e2⟩ := List.append_of_mem hml2
    have hj2 := h.just a2 _ b2 e2
    rw [← hsrc] at hj2
    have hsym : x.elf.syms[j']? = some s' ∧ x.elf.symName s'.st_name = some m ∧ p = x.path := by
      generalize hc2 : (⟨src, .symbol j', .sym s' sec m p y⟩ : Call) = c2 at hj2
      cases hj2 with
      | «section» hx hi ht hn hd => cases hc2
      | symbol hx' hj hn hs =>
        cases hc2
        have := h.unique hx' hx hsrc
        subst this
        exact ⟨hj, hn, rfl⟩
      | reloc hx hk h0 hs hr hy => cases hc2
      | dynsym hp hd he hj hn hq hm => cases hc2
      | needed hf => cases hc2
    obtain ⟨g1, g2, rfl⟩ := hsym
    refine ⟨x, k, pos, j, rel, s, sh, n, hx, rfl, rfl, rfl, ?_, hs, hsec.1, hsec.2.1, hsec.2.2.1, ⟨d, hml, hsec.2.2.2⟩, j', s', sec, m, hml2, g1, g2, hs'⟩
    unfold ElfFile.usedRelocs
    rw [List.mem_filter]
    refine ⟨hk, ?_⟩
    simp only [decide_eq_true_eq]
    exact ⟨h0, mem_copied.2 ⟨sh, hsec.1, hsec.2.1⟩⟩
  | dynsym hp hd he hj hn hq hm => cases e
  | needed hf => cases e

theorem used_mem {e : ElfFile} {y : Nat × Nat × Nat × InReloc} (h : y ∈ e.usedRelocs) : y ∈ e.relocs ∧ y.2.2.2.r_sym ≠ 0 := by
  unfold ElfFile.usedRelocs at h
  rw [List.mem_filter] at h
  exact ⟨h.1, (of_decide_eq_true h.2).1⟩

/-- relocations of sound files are in sections with data -/
theorem RelocCall.data {c : Call} {rela : Rela} {y : SymbolRef} {sr : SectionRef} {x : Loaded} {k pos j : Nat} {rel : InReloc} {s : Sym} {sh : SectionHeader} {n : Name}
    (R : RelocCall loaded log c rela y sr x k pos j rel s sh n) (h : Calls env l N loaded log) (hr : SoundRelocs env l) :
    (⟨x.source, .section (pos - 1), .push n sh (some (sectionSlice x.data sh)) sr⟩ : Call) ∈ log ∧ sh.sh_offset + sh.sh_size ≤ x.data.length := by
  obtain ⟨d, hm, hd⟩ := R.push
  have h8 := (hr.home _ _ _ _ _ _ _ _ (h.inputAt R.file) R.used R.header).1
  unfold SectionBytes at hd
  rw [if_neg h8] at hd
  rw [hd.2] at hm
  exact ⟨hm, hd.1⟩

theorem fromInputs (h : Calls env l N loaded log) : FromInputs env l (fun _ _ _ => True) (opsOf log) := by
  intro s sec n path r hop
  obtain ⟨x, hx, hs, hn, rfl⟩ := h.sym hop
  obtain ⟨j, hj⟩ := List.getElem?_of_mem hs
  exact ⟨x.data, x.elf, j, h.inputAt hx, hj, hn, trivial⟩

theorem symstr_small (h : Calls env l N loaded log) (hh : Hist opts (opsOf log) w) (hn : NamesSmall env l) : w.symstr.totalLen < 2 ^ 32 := by
  obtain ⟨ns, nd, T⟩ := hh.tableFacts
  rw [T.symstr.total]
  refine hn.total h.fromInputs T.symstr.nodup fun m hm => ?_
  rcases (T.symNames m).1 hm with hm | hm
  · exact .inl hm
  · exact .inr (.inl hm)

/-- symbols all of whose mentions are thread-local are thread-local -/
theorem threadLocal (h : Calls env l N loaded log) (hh : Hist opts (opsOf log) w) (hn : NamesSmall env l) {s : Sym} {sec : Option SectionRef} {n : Name} {path : Path}
    {y : SymbolRef} (hop : Op.sym s sec n path y ∈ opsOf log) (ht : TlsName env l n) : ThreadLocal w.symtab y := by
  have hlt := h.symstr_small hh hn
  obtain ⟨ns, nd, T⟩ := hh.tableFacts
  obtain ⟨x, hx, hs, hnm, _⟩ := h.sym hop
  have h6 := ht.2 _ _ _ _ (h.inputAt hx) hs hnm
  obtain ⟨g1, g2⟩ := T.inv.sref _ _ _ _ _ hop
  obtain ⟨z, hz⟩ := Option.isSome_iff_exists.1 g1
  have hy := g2 (by rw [show stType s.st_info = s.st_info % 16 from rfl, h6]; decide)
  refine ⟨z, hz, ?_⟩
  rw [hy] at hz
  have hz' : (w.symtab.mapSyms undyn).get (.named (u32 (nameOff ns n))) = some (undyn z) := by rw [get_mapSyms, hz]; rfl
  have hmem : n ∈ ns := (T.symNames n).2 (.inr (mem_symNames hop))
  have := merged_forall T.inv.sym (P := fun x => x.sym.st_info % 16 = 6) (fun h0 => ?_) (fun a ha hm => ?_) (fun a _ _ hP old s' ho hr => ?_) hz'
  · exact this
  · exfalso
    have : n = [] := by
      refine u32_nameOff_inj T.symstr hlt hmem ((T.symNames []).2 (.inl rfl)) ?_
      rw [h0, nameOff_nil T.symstr.head]; rfl
    exact ht.1 this
  · obtain ⟨s', sec', m, path', r', hop', rfl⟩ := mem_symAdds ha
    have : m = n := u32_nameOff_inj T.symstr hlt ((T.symNames m).2 (.inr (mem_symNames hop'))) hmem hm.2
    subst this
    obtain ⟨x', hx', hs', hnm', _⟩ := h.sym hop'
    exact (ht.2 _ _ _ s' (h.inputAt hx') hs' hnm' :)
  · rcases resolve_cases hr with ⟨_, h2, _⟩ | ⟨_, h2, _⟩
    · rw [h2]; exact hP
    · rw [h2]; exact ho

theorem relocsOk (h : Calls env l N loaded log) (hh : Hist opts (opsOf log) w) (hf : SoundFiles env l) (hr : SoundRelocs env l) (hn : NamesSmall env l) :
    RelocsOk (opsOf log) w := by
  constructor
  · intro rela y sr path hop
    obtain ⟨c, hc, e⟩ := List.mem_map.1 hop
    obtain ⟨x, k, pos, j, rel, s, sh, n, R⟩ := h.relocCall hc e
    obtain ⟨hp, hlen⟩ := R.data h hr
    have hi := h.inputAt R.file
    obtain ⟨h1, h2, h3, h4⟩ := hr.home _ _ _ _ _ _ _ _ hi R.used R.header
    refine ⟨n, sh, _, List.mem_map.2 ⟨_, hp, rfl⟩, ?_⟩
    rw [R.rela]
    refine ⟨hr.type _ _ _ _ _ _ _ hi R.used, ?_, fun ht _ => h3 ht, fun ht _ => h4 ht, fun ht => ?_⟩
    · unfold sectionSlice
      rw [List.length_take, List.length_drop]
      omega
    · obtain ⟨j', s', sec, m, hm, g1, g2, g3⟩ := R.symbol
      have : s.st_name = s'.st_name := by rw [← g3]
      exact h.threadLocal hh hn (List.mem_map.2 ⟨_, hm, rfl⟩) (hr.tls _ _ _ _ _ _ _ _ _ hi R.used ht R.sym (by rw [this]; exact g2))
  · intro sr
    unfold relasIn opsOf
    rw [List.filterMap_map, List.pairwise_filterMap]
    have ho := h.once.2
    unfold otherCalls at ho
    rw [List.Nodup, List.pairwise_map, List.pairwise_filter] at ho
    refine ho.imp_of_mem fun {c c'} hc hc' hne => ?_
    intro b hb b' hb'
    have key : ∀ {c : Call} {b : Rela}, (match c.op with
        | .reloc rel _ r _ => if r = sr then some rel else none
        | _ => none) = some b → ∃ y path, c.op = .reloc b y sr path := by
      intro c b hb
      split at hb
      · split at hb
        · next e hr => cases hb; exact ⟨_, _, hr ▸ e⟩
        · cases hb
      · cases hb
    obtain ⟨y, p, e⟩ := key hb
    obtain ⟨y', p', e'⟩ := key hb'
    obtain ⟨x, k, pos, j, rel, s, sh, n, R⟩ := h.relocCall hc e
    obtain ⟨x', k', pos', j', rel', s', sh', n', R'⟩ := h.relocCall hc' e'
    have hne := hne (by rw [R.item]; rfl) (by rw [R'.item]; rfl)
    have hcc := hh.push_call_inj (R.data h hr).1 (R'.data h hr).1 rfl rfl
    simp only [Call.mk.injEq, Item.section.injEq] at hcc
    have hx := h.unique R.file R'.file hcc.1
    subst hx
    have hi := h.inputAt R.file
    have hpos : pos = pos' := by
      have h1 := (hf.symbols _ _ _ _ _ _ _ hi (used_mem R.used).1 (used_mem R.used).2).2
      have h2 := (hf.symbols _ _ _ _ _ _ _ hi (used_mem R'.used).1 (used_mem R'.used).2).2
      have := hcc.2.1
      omega
    rw [R.source, R.item, R'.source, R'.item] at hne
    have := pairwise_ne (R := fun a b : Nat × Nat × Nat × InReloc => a.2.1 = b.2.1 → Apart (relField a.2.2.2.rela) (relField b.2.2.2.rela))
      (fun a b h e => (h e.symm).symm) (hr.apart _ _ _ hi) _ R.used _ R'.used (by
        intro e
        simp only [Prod.mk.injEq] at e
        exact hne (by rw [e.1, e.2.2.1])) hpos
    rw [R.rela, R'.rela]
    exact this

/-- the calls for sound files cannot be choked on -/
theorem digestible (h : Calls env l (NeededIn env l) loaded log) (hh : Hist l.options (opsOf log) w) (hc : CleanFiles env l) (hf : SoundFiles env l)
    (hr : SoundRelocs env l) (hn : NamesSmall env l) (hF : FewFlags env l F) (fits : Spec.Fits l.options (opsOf log) V K) :
    Digestible l.options (opsOf log) w F V K := by
  refine ⟨⟨h.good hc, ?_, h.namedDyns hc, h.symsClean hc, ?_, h.relocsOk hh hf hr hn, ?_, hF.few, fits⟩, ?_⟩
  · intro rela y sr path hop
    obtain ⟨c, hc, e⟩ := List.mem_map.1 hop
    obtain ⟨x, k, pos, j, rel, s, sh, n, R⟩ := h.relocCall hc e
    obtain ⟨j', s', sec, m, hm, _⟩ := R.symbol
    exact ⟨s', sec, m, x.path, List.mem_map.2 ⟨_, hm, rfl⟩⟩
  · intro s sec n path r hop ht
    obtain ⟨x, hx, hs, hnm, _⟩ := h.sym hop
    exact hf.nameless _ _ _ _ _ (h.inputAt hx) hs ht hnm
  · intro n sh d r hop
    obtain ⟨x, hx, hs, _⟩ := h.copies hop
    exact hF.flags _ _ _ _ _ (h.inputAt hx) hs
  · intro rela y sr path n sh d hop hp sh' d' r' hp'
    obtain ⟨c, hc, e⟩ := List.mem_map.1 hop
    obtain ⟨x, k, pos, j, rel, s, sh2, n2, R⟩ := h.relocCall hc e
    obtain ⟨c2, hc2, e2⟩ := List.mem_map.1 hp
    have hcc := hh.push_call_inj (R.data h hr).1 hc2 rfl e2
    rw [← hcc] at e2
    cases e2
    obtain ⟨x', hx', hs', _⟩ := h.copies hp'
    exact hr.loaded _ _ _ _ _ _ _ _ _ (h.inputAt R.file) R.used R.header R.name _ _ _ _ (h.inputAt hx') hs'

end Calls

/-! ### The end of the link -/
namespace Linker

theorem undefinedNames_ok {rs : List SymbolRef} (h : ∀ r ∈ rs, ∃ o, w.symbolName r = .ok o) : ∃ ns, undefinedNames w rs = .ok ns := by
  induction rs with
  | nil => exact ⟨[], rfl⟩
  | cons r rs ih =>
    obtain ⟨o, ho⟩ := h r (by simp)
    obtain ⟨ns, hns⟩ := ih fun r hr => h r (by simp [hr])
    exact ⟨o.toList ++ ns, by simp only [undefinedNames, ho, hns, ok_bind]⟩

/-- the end of a link of sound files does not crash -/
theorem finish_sound {F : List Nat} {V K : Nat} {log : List Call} {sched : LinkSched} (hv : sched.Valid) (hh : Hist l.options (opsOf log) w)
    (D : Digestible l.options (opsOf log) w F V K) (hl : w.symstr.totalLen < 2 ^ 32) : finish l sched w ≠ .error .panic := by
  obtain ⟨w', f, s, hr⟩ := hh.digest hv.toSched D
  obtain ⟨st, hst⟩ := hr.stages
  unfold finish
  rw [hr.compute]
  simp only [ok_bind]
  split
  · obtain ⟨ns, hns⟩ := undefinedNames_ok (w := w') (rs := w'.undefinedSymbols sched.symIter) (by
      intro r hm
      obtain ⟨k, y, rfl, hy, _⟩ := (mem_undefinedSymbols hv.toSched.symIter).1 hm
      have hk : (w.symtab.get (.named k)).isSome := by
        rw [← hst] at hy
        obtain ⟨s1, _, hs1, _⟩ := st.final_slots hv.toSched hh hy
        obtain ⟨s0, h1, _⟩ := SymbolTable.view_get_some (scan_view (F := fun s : Symbol => s.dynamic) (fun _ _ _ _ => ⟨rfl, rfl⟩) st.hscan) hs1
        exact Option.isSome_iff_exists.2 ⟨s0, h1⟩
      have hnm := hh.name_isSome hl hk
      obtain ⟨n, hn⟩ := Option.isSome_iff_exists.1 hnm
      refine ⟨some n, ?_⟩
      unfold symbolName
      simp only []
      rw [← hst, st.final_post.2.2.2.2.1, st.sorted_rest.2.1, hn]
      rfl)
    rw [hns]
    intro h; cases h
  · rw [hr.write]
    intro h; cases h

end Linker
end Dld
