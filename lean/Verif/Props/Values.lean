import Verif.Lemmas.SymbolFile
import Verif.Props.Contents
/-! # C53–C58: the values of symbols in the output -/
namespace Dld
open Writer Spec StringTable
variable {opts : Options} {ops a b a' b' : List Op} {sched : Sched} {w w' : Writer} {file : Bytes} {secs : List Section}

theorem symAdds_cons (ns : List Name) (s : Sym) (sec : Option SectionRef) (n : Name) (path : Path) (r : SymbolRef) (b : List Op) :
    symAdds ns (Op.sym s sec n path r :: b) =
      { sym := { s with st_name := u32 (nameOff ns n) }, hash := elfHash n, gnuHash := elfGnuHash n, ref := path } :: symAdds ns b := rfl

/-- mentions of a name among the additions are mentions among the calls -/
theorem GoodLink.mention_of (h : GoodLink opts ops sched w w' file secs) {ns nd : List Name} (T : TableFacts ns nd ops w) {n : Name} (hn : n ∈ ns)
    {l : List Op} (hl : ∀ op ∈ l, op ∈ ops) {x : Add} (hx : x ∈ symAdds ns l) (hm : x.mentions (u32 (nameOff ns n))) :
    ∃ s' sec, Mention l s' sec n ∧ x.sym = { s' with st_name := u32 (nameOff ns n) } := by
  obtain ⟨s', sec, m, path, r, hop, rfl⟩ := mem_symAdds hx
  have : m = n := u32_nameOff_inj T.symstr h.symstr ((T.symNames m).2 (.inr (mem_symNames (hl _ hop)))) hn hm.2
  subst this
  exact ⟨s', sec, ⟨⟨path, r, hop⟩, hm.1⟩, rfl⟩

/-- the chunks a name is noted in are those of the sections it is attached to -/
theorem GoodLink.noted_attached (h : GoodLink opts ops sched w w' file secs) {ns nd : List Name} (T : TableFacts ns nd ops w) {n : Name} (hn : n ∈ ns)
    {sr : SectionRef} (hin : .named (u32 (nameOff ns n)) ∈ notesAt sr ops) (hf : P.first ≤ sr.ptr) :
    ∃ s, Mention ops s (some sr) n ∧ Attached ops s (some sr) sr := by
  obtain ⟨s', n', path', hop', habs⟩ := mem_notesAt.1 hin
  obtain ⟨rfl, h3⟩ := h.named_ref T hn rfl hop'
  refine ⟨s', ⟨⟨_, _, hop'⟩, h3⟩, rfl, habs, fun sh d hp => ?_⟩
  rw [h.run.hist.null_push hp] at hf
  exact absurd hf (by decide)

theorem GoodLink.nonzero (h : GoodLink opts ops sched w w' file secs) {ns nd : List Name} (T : TableFacts ns nd ops w) {n : Name} (hn : n ≠ [])
    (hns : n ∈ ns) : u32 (nameOff ns n) ≠ 0 := by
  intro h0
  have hnil : u32 (nameOff ns []) = 0 := by rw [nameOff_nil T.symstr.head]; rfl
  have hmem : [] ∈ ns := (T.symNames []).2 (.inl rfl)
  exact hn (u32_nameOff_inj T.symstr h.symstr hns hmem (h0.trans hnil.symm))

/-- the merged symbol of a name that a definition decides, be it in a section or not -/
theorem GoodLink.decided_any (h : GoodLink opts ops sched w w' file secs) {ns nd : List Name} (T : TableFacts ns nd ops w) {s : Sym}
    {sec : Option SectionRef} {n : Name} {path : Path} {r : SymbolRef} (e : ops = a ++ Op.sym s sec n path r :: b) (hn : n ≠ []) (h3 : s.st_info % 16 ≠ 3)
    (hdef : s.st_shndx ≠ 0) (hbinds : s.st_info / 16 ≤ 2) (hearlier : ∀ s' sec, Mention a s' sec n → s'.st_info / 16 ≤ 2 ∧ bindRank s' < bindRank s)
    (hlater : ∀ s' sec, Mention b s' sec n → s'.st_info / 16 ≤ 2 ∧ bindRank s' ≤ bindRank s) :
    r = .named (u32 (nameOff ns n)) ∧ n ∈ ns ∧ ∃ x, w.symtab.get r = some x ∧ x.sym = { s with st_name := u32 (nameOff ns n) } := by
  have hop : Op.sym s sec n path r ∈ ops := by rw [e]; simp
  have hr := (T.inv.sref _ _ _ _ _ hop).2 h3
  have hns : n ∈ ns := (T.symNames n).2 (.inr (mem_symNames hop))
  refine ⟨hr, hns, ?_⟩
  have hadd := T.inv.sym
  rw [e, symAdds_append, symAdds_cons] at hadd
  have h0 := h.nonzero T hn hns
  have ha : ∀ op ∈ a, op ∈ ops := fun op ho => by rw [e]; simp [ho]
  have hb : ∀ op ∈ b, op ∈ ops := fun op ho => by rw [e]; simp [ho]
  have std : ∀ {x : Add} {s' : Sym}, x.sym = { s' with st_name := u32 (nameOff ns n) } → s'.st_info / 16 ≤ 2 → x.stdBind := by
    intro x s' hx hle
    have : x.bind = s'.st_info / 16 := by unfold Add.bind; rw [hx]
    unfold Add.stdBind
    omega
  have rank : ∀ {x : Add} {s' : Sym}, x.sym = { s' with st_name := u32 (nameOff ns n) } → x.rank = bindRank s' := by
    intro x s' hx
    have : x.bind = s'.st_info / 16 := by unfold Add.bind; rw [hx]
    unfold Add.rank bindRank
    rw [this]
  have hs : ∀ x ∈ symAdds ns a ++ { sym := { s with st_name := u32 (nameOff ns n) }, hash := elfHash n, gnuHash := elfGnuHash n, ref := path } :: symAdds ns b,
      x.mentions (u32 (nameOff ns n)) → x.stdBind := by
    intro x hx hm
    rcases List.mem_append.1 hx with hx | hx
    · obtain ⟨s', sec, hm', hxs⟩ := h.mention_of T hns ha hx hm
      exact std hxs (hearlier s' sec hm').1
    · rcases List.mem_cons.1 hx with rfl | hx
      · exact std rfl hbinds
      · obtain ⟨s', sec, hm', hxs⟩ := h.mention_of T hns hb hx hm
        exact std hxs (hlater s' sec hm').1
  obtain ⟨y, hy, hys⟩ := definition_kept hadd hs h0 ⟨h3, rfl⟩ hdef (fun x hx hm => by
      obtain ⟨s', sec, hm', hxs⟩ := h.mention_of T hns ha hx hm
      rw [rank hxs, rank (s' := s) rfl]
      exact (hearlier s' sec hm').2) (fun x hx hm => by
      obtain ⟨s', sec, hm', hxs⟩ := h.mention_of T hns hb hx hm
      rw [rank hxs, rank (s' := s) rfl]
      exact (hlater s' sec hm').2)
  rw [SymbolTable.get_mapSyms] at hy
  obtain ⟨x, hx, rfl⟩ := Option.map_eq_some_iff.1 hy
  exact ⟨x, by rw [hr]; exact hx, hys⟩

/-- the merged symbol of a name that a definition decides -/
theorem GoodLink.decided (h : GoodLink opts ops sched w w' file secs) {ns nd : List Name} (T : TableFacts ns nd ops w) {s : Sym} {sr : SectionRef}
    {n : Name} {path : Path} {r : SymbolRef} (e : ops = a ++ Op.sym s (some sr) n path r :: b) (hn : n ≠ []) (hd : Decides a s sr n b) :
    r = .named (u32 (nameOff ns n)) ∧ n ∈ ns ∧ ∃ x, w.symtab.get r = some x ∧ x.sym = { s with st_name := u32 (nameOff ns n) } :=
  h.decided_any T e hn hd.named hd.defined hd.binds hd.earlier hd.later

/-- **C53, what holds.** Let `s` define `n` at offset `s.st_value` of an input section pushed under the name `m`. If the definition comes after
weaker mentions of `n` only and before mentions that are not stronger, and `n` is attached to no other section, then the symbol table of the file
has exactly one entry for `n`. Its value is the address of the output section `m`, plus the sizes of everything pushed under `m` before the input
section, plus `s.st_value`; size, type, binding and visibility are those of `s`, and its section index is that of `m`.
What is missing: definitions that come after a mention of the same strength (`C53_violated`), names attached to several sections
(`C54_violated`), and zero-fill sections that are not the first of their name (`C55_violated`). -/
theorem C53_partial (h : GoodLink opts ops sched w w' file secs) {s : Sym} {sr : SectionRef} {n m : Name} {path : Path} {r : SymbolRef}
    {sh : SectionHeader} {d : Option Bytes}
    (e : ops = a ++ Op.sym s (some sr) n path r :: b) (hn : n ≠ []) (hl : n ∉ linkerSymbols) (hd : Decides a s sr n b)
    (e' : ops = a' ++ Op.push m sh d sr :: b') (hm : m ≠ []) (hz : d.isSome ∨ pushesOf m a' = []) :
    ∃ o y, sectionsNamed file m = [o] ∧ symbolsNamed file n = [y] ∧ y.value = o.addr + offsetOf m a' + s.st_value ∧
      y.size = s.st_size ∧ y.info = s.st_info ∧ y.other = s.st_other ∧ (shdrs file)[y.shndx]? = some o := by
  obtain ⟨ns, nd, T⟩ := h.run.hist.tableFacts
  obtain ⟨hr, hns, x, hx, hxs⟩ := h.decided T e hn hd
  have hop : Op.sym s (some sr) n path r ∈ ops := by rw [e]; simp
  obtain ⟨i, t, hi, _, hsn, hv⟩ := h.toGoodRun.placed_symbol (r := r) (by rw [hr]; exact T.ordinary h.symstr hns hl) e' hm
    (mem_notesAt.2 ⟨s, n, path, hop, hd.absolute⟩) (by
      intro sr' hin hf
      obtain ⟨s', n', path', hop', habs⟩ := mem_notesAt.1 hin
      obtain ⟨rfl, h3⟩ := h.named_ref T hns hr hop'
      have hnull : ∀ sh d, Op.push [] sh d sr' ∉ ops := by
        intro sh d hp
        have := h.run.hist.null_push hp
        rw [this] at hf
        exact absurd hf (by decide)
      rw [e] at hop'
      simp only [List.mem_append, List.mem_cons] at hop'
      rcases hop' with h1 | h1 | h1
      · exact hd.only s' _ sr' ⟨⟨_, _, List.mem_append_left _ h1⟩, h3⟩ ⟨rfl, habs, fun sh d hp => hnull sh d (by
          rw [e]; rcases List.mem_append.1 hp with hp | hp <;> simp [hp])⟩
      · cases h1; rfl
      · exact hd.only s' _ sr' ⟨⟨_, _, List.mem_append_right _ h1⟩, h3⟩ ⟨rfl, habs, fun sh d hp => hnull sh d (by
          rw [e]; rcases List.mem_append.1 hp with hp | hp <;> simp [hp])⟩)
  rw [hx, Option.map_some] at hv
  obtain ⟨y, hy, hys⟩ := Option.map_eq_some_iff.1 hv
  rw [hr] at hy
  refine ⟨_, y.sym.toSpec, hsn, h.symbol_named T hns hy, ?_, ?_, ?_, ?_, ?_⟩
  · show y.sym.st_value = t.sh.sh_addr + _ + _
    rw [hys, hr, hxs, ← offsetOf_startOf h.good.clean e' hm hz]
    show s.st_value + _ = _
    omega
  · show y.sym.st_size = _
    rw [hys, hr, hxs]; rfl
  · show y.sym.st_info = _
    rw [hys, hr, hxs]; rfl
  · show y.sym.st_other = _
    rw [hys, hr, hxs]; rfl
  · show (shdrs file)[y.sym.st_shndx]? = _
    rw [hys, hr]
    exact h.shndx hi

/-- the merged value of a name is that of one of its mentions -/
theorem GoodLink.merged (h : GoodLink opts ops sched w w' file secs) {ns nd : List Name} (T : TableFacts ns nd ops w) {n : Name} (hn : n ≠ [])
    {s : Sym} {sec : Option SectionRef} (hm : Mention ops s sec n) : n ∈ ns ∧ ∃ x s' sec', w.symtab.get (.named (u32 (nameOff ns n))) = some x ∧
      Mention ops s' sec' n ∧ x.sym.st_value = s'.st_value := by
  obtain ⟨⟨path, r, hop⟩, h3⟩ := hm
  have hr := (T.inv.sref _ _ _ _ _ hop).2 h3
  have hns : n ∈ ns := (T.symNames n).2 (.inr (mem_symNames hop))
  obtain ⟨x, hx⟩ := Option.isSome_iff_exists.1 (T.inv.sref _ _ _ _ _ hop).1
  rw [hr] at hx
  obtain ⟨z, hz, hzm, hv⟩ := merged_value T.inv.sym (h.nonzero T hn hns) (s := SymbolTable.undyn x) (by rw [SymbolTable.get_mapSyms, hx]; rfl)
  obtain ⟨s', sec', hm', hzs⟩ := h.mention_of T hns (fun _ h => h) hz hzm
  refine ⟨hns, x, s', sec', hx, hm', ?_⟩
  have : x.sym.st_value = z.sym.st_value := hv
  rw [this, hzs]

/-- **C54, what holds.** Let `n` be mentioned by the inputs and not be one of the symbols the linker sets itself. If all mentions of `n` that are
attached to a section are attached to the same input section, pushed under the name `m`, the file has exactly one symbol `n`, and its value is the
value of a mention plus the address of that input section in the output, added once. If no mention is attached to a section, it is the value of a
mention. What is missing: names attached to several input sections (`C54_violated`). -/
theorem C54_partial (h : GoodLink opts ops sched w w' file secs) {s : Sym} {sec : Option SectionRef} {n : Name} (hn : n ≠ []) (hl : n ∉ linkerSymbols)
    (hm : Mention ops s sec n) :
    (∀ sr m sh d a b, Attached ops s sec sr → (∀ s' sec' sr', Mention ops s' sec' n → Attached ops s' sec' sr' → sr' = sr) →
      ops = a ++ Op.push m sh d sr :: b → m ≠ [] → d.isSome ∨ pushesOf m a = [] →
      ∃ o y s' sec', sectionsNamed file m = [o] ∧ symbolsNamed file n = [y] ∧ Mention ops s' sec' n ∧ y.value = o.addr + offsetOf m a + s'.st_value ∧
        (shdrs file)[y.shndx]? = some o) ∧
    ((∀ s' sec' sr', Mention ops s' sec' n → ¬ Attached ops s' sec' sr') →
      ∃ y s' sec', symbolsNamed file n = [y] ∧ Mention ops s' sec' n ∧ y.value = s'.st_value) := by
  obtain ⟨ns, nd, T⟩ := h.run.hist.tableFacts
  obtain ⟨hns, x, s1, sec1, hx, hm1, hv1⟩ := h.merged T hn hm
  have ho := T.ordinary h.symstr hns hl
  refine ⟨fun sr m sh d a b hat honly e hme hz => ?_, fun hno => ?_⟩
  · obtain ⟨⟨path, r, hop⟩, h3⟩ := hm
    have hr := (T.inv.sref _ _ _ _ _ hop).2 h3
    rw [hat.1, hr] at hop
    obtain ⟨i, t, hi, _, hsn, hv⟩ := h.toGoodRun.placed_symbol ho e hme (mem_notesAt.2 ⟨s, n, path, hop, hat.2.1⟩) (fun sr' hin hf => by
      obtain ⟨s', hm', ha'⟩ := h.noted_attached T hns hin hf
      exact honly _ _ _ hm' ha')
    rw [hx, Option.map_some] at hv
    obtain ⟨y, hy, hys⟩ := Option.map_eq_some_iff.1 hv
    refine ⟨_, y.sym.toSpec, s1, sec1, hsn, h.symbol_named T hns hy, hm1, ?_, ?_⟩
    · show y.sym.st_value = t.sh.sh_addr + _ + _
      rw [hys, ← offsetOf_startOf h.good.clean e hme hz, ← hv1]
      show x.sym.st_value + _ = _
      omega
    · show (shdrs file)[y.sym.st_shndx]? = _
      rw [hys]
      exact h.shndx hi
  · obtain ⟨st, hst⟩ := h.run.stages
    have h1 := h.toGoodRun.unplaced_symbol st hst ho.toUnbound (fun sr hin => Nat.lt_of_not_le fun hf => by
      obtain ⟨s', hm', ha'⟩ := h.noted_attached T hns hin hf
      exact hno _ _ _ hm' ha')
    rw [special_other (by rw [st.patched_symstr]; exact ho) st.hspecial, SymbolTable.view_get st.patched_sym, hx, Option.map_some] at h1
    obtain ⟨y, hy, hys⟩ := Option.map_eq_some_iff.1 h1
    refine ⟨y.sym.toSpec, s1, sec1, h.symbol_named T hns hy, hm1, ?_⟩
    show y.sym.st_value = _
    rw [hys, hv1]

theorem offsetOf_append (m : Name) (a b : List Op) : offsetOf m (a ++ b) = offsetOf m a + offsetOf m b := by
  simp [offsetOf, pushesOf_append]

theorem offsetOf_cons (m : Name) (sh : SectionHeader) (d : Option Bytes) (r : SectionRef) (b : List Op) :
    offsetOf m (Op.push m sh d r :: b) = sh.sh_size + offsetOf m b := by
  simp [offsetOf, pushesOf]

theorem append_compare {α : Type} {a b a' b' : List α} {x x' : α} (e : a ++ x :: b = a' ++ x' :: b') :
    (∃ c, a' = a ++ x :: c) ∨ (∃ c, a = a' ++ x' :: c) ∨ (a = a' ∧ x = x') := by
  rcases List.append_eq_append_iff.1 e with ⟨c, h1, h2⟩ | ⟨c, h1, h2⟩
  · cases c with
    | nil => simp at h1 h2; exact .inr (.inr ⟨h1.symm, h2.1⟩)
    | cons y c => simp at h2; obtain ⟨rfl, _⟩ := h2; exact .inl ⟨c, h1⟩
  · cases c with
    | nil => simp at h1 h2; exact .inr (.inr ⟨h1, h2.1.symm⟩)
    | cons y c => simp at h2; obtain ⟨rfl, _⟩ := h2; exact .inr (.inl ⟨c, h1⟩)

/-- two output sections of different names do not overlap -/
theorem GoodRun.apart (h : GoodRun opts ops sched w w' file secs) {m m' : Name} (hne : m ≠ m') (hm : m ≠ []) (hm' : m' ≠ [])
    {sh sh' : SectionHeader} {d d' : Option Bytes} {sr sr' : SectionRef} (hp : Op.push m sh d sr ∈ ops) (hp' : Op.push m' sh' d' sr' ∈ ops)
    {o o' : EShdr} (ho : sectionsNamed file m = [o]) (ho' : sectionsNamed file m' = [o']) (ha : o.flags.testBit 1 = true) (ha' : o'.flags.testBit 1 = true) :
    o.addr + o.size ≤ o'.addr ∨ o'.addr + o'.size ≤ o.addr := by
  have key : ∀ {m : Name} {sh : SectionHeader} {d : Option Bytes} {sr : SectionRef} {o : EShdr}, m ≠ [] → Op.push m sh d sr ∈ ops →
      sectionsNamed file m = [o] → o.flags.testBit 1 = true → ∃ (i : Nat) (t : Section), secs[i]? = some t ∧ o = t.sh.toSpec ∧ Allocated t ∧ t.kind ≠ .copyRel ∧
        Spec.nameOf file o = some m := by
    intro m sh d sr o hm hp ho hal
    obtain ⟨t, ht, htp, hsn⟩ := h.push_section hp
    rw [ho] at hsn
    have hot : o = t.sh.toSpec := by simpa using hsn
    obtain ⟨i, hi⟩ := List.getElem?_of_mem ht
    refine ⟨i, t, hi, hot, by rw [hot] at hal; exact hal, ?_, ?_⟩
    · intro hk
      have hp1 := (h.run.known h.good.flags ht).copyRel_kind.1 hk
      obtain ⟨s1, _, hsp1, hf1, _⟩ := h.run.hist.pushed_section hp (h.good.clean.foreign hp hm _)
      rw [hsp1, ← htp, hp1] at hf1
      exact absurd hf1 (by decide)
    · have : o ∈ sectionsNamed file m := by rw [ho]; simp
      simpa using (List.mem_filter.1 this).2
  obtain ⟨i, t, hi, rfl, h1, h2, h3⟩ := key hm hp ho ha
  obtain ⟨j, t', hj, rfl, h1', h2', h3'⟩ := key hm' hp' ho' ha'
  rcases Nat.lt_trichotomy i j with hij | hij | hij
  · exact .inl (C38_sections_disjoint_partial h.run h.good.flags i j t t' hij hi hj h1 h1' h2)
  · subst hij
    rw [hi] at hj; cases hj
    rw [h3] at h3'; cases h3'
    exact absurd rfl hne
  · exact .inr (C38_sections_disjoint_partial h.run h.good.flags j i t' t hij hj hi h1' h1 h2')

/-- **C55, what holds.** Two symbols decided by definitions in two different input sections (see `C53_partial`), each of which has data or is the
first push of its name, have disjoint address ranges if each symbol lies inside its input section and the output sections are allocated. What is
missing: zero-fill sections that are not the first of their name (`C55_violated`). -/
theorem C55_partial (h : GoodLink opts ops sched w w' file secs) {s₁ s₂ : Sym} {sr₁ sr₂ : SectionRef} {n₁ n₂ m₁ m₂ : Name} {path₁ path₂ : Path}
    {r₁ r₂ : SymbolRef} {sh₁ sh₂ : SectionHeader} {d₁ d₂ : Option Bytes} {a₁ a₂ b₁ b₂ c₁ c₂ e₁ e₂ : List Op}
    (hs₁ : ops = a₁ ++ Op.sym s₁ (some sr₁) n₁ path₁ r₁ :: b₁) (hs₂ : ops = a₂ ++ Op.sym s₂ (some sr₂) n₂ path₂ r₂ :: b₂)
    (hn₁ : n₁ ≠ []) (hn₂ : n₂ ≠ []) (hl₁ : n₁ ∉ linkerSymbols) (hl₂ : n₂ ∉ linkerSymbols)
    (hd₁ : Decides a₁ s₁ sr₁ n₁ b₁) (hd₂ : Decides a₂ s₂ sr₂ n₂ b₂)
    (hp₁ : ops = c₁ ++ Op.push m₁ sh₁ d₁ sr₁ :: e₁) (hp₂ : ops = c₂ ++ Op.push m₂ sh₂ d₂ sr₂ :: e₂) (hm₁ : m₁ ≠ []) (hm₂ : m₂ ≠ [])
    (hz₁ : d₁.isSome ∨ pushesOf m₁ c₁ = []) (hz₂ : d₂.isSome ∨ pushesOf m₂ c₂ = [])
    (hin₁ : s₁.st_value + s₁.st_size ≤ sh₁.sh_size) (hin₂ : s₂.st_value + s₂.st_size ≤ sh₂.sh_size) (hne : sr₁ ≠ sr₂)
    (hal₁ : ∀ o ∈ sectionsNamed file m₁, o.flags.testBit 1 = true) (hal₂ : ∀ o ∈ sectionsNamed file m₂, o.flags.testBit 1 = true) :
    ∃ y₁ y₂, symbolsNamed file n₁ = [y₁] ∧ symbolsNamed file n₂ = [y₂] ∧ (y₁.value + y₁.size ≤ y₂.value ∨ y₂.value + y₂.size ≤ y₁.value) := by
  obtain ⟨o₁, y₁, ho₁, hy₁, hv₁, hsz₁, _⟩ := C53_partial h hs₁ hn₁ hl₁ hd₁ hp₁ hm₁ hz₁
  obtain ⟨o₂, y₂, ho₂, hy₂, hv₂, hsz₂, _⟩ := C53_partial h hs₂ hn₂ hl₂ hd₂ hp₂ hm₂ hz₂
  refine ⟨y₁, y₂, hy₁, hy₂, ?_⟩
  rw [hv₁, hv₂, hsz₁, hsz₂]
  have hq₁ : Op.push m₁ sh₁ d₁ sr₁ ∈ ops := by rw [hp₁]; simp
  have hq₂ : Op.push m₂ sh₂ d₂ sr₂ ∈ ops := by rw [hp₂]; simp
  by_cases hm : m₁ = m₂
  · subst hm
    rw [ho₁] at ho₂; cases ho₂
    rcases append_compare (hp₁.symm.trans hp₂) with ⟨c, rfl⟩ | ⟨c, rfl⟩ | ⟨_, hcon⟩
    · left
      rw [offsetOf_append, offsetOf_cons]; omega
    · right
      rw [offsetOf_append, offsetOf_cons]; omega
    · cases hcon; exact absurd rfl hne
  · have tot : ∀ {m : Name} {sh : SectionHeader} {d : Option Bytes} {sr : SectionRef} {c e : List Op} {o : EShdr}, m ≠ [] →
        ops = c ++ Op.push m sh d sr :: e → sectionsNamed file m = [o] → offsetOf m c + sh.sh_size ≤ o.size := by
      intro m sh d sr c e o hm hp ho
      obtain ⟨o', ho', hsz, _⟩ := C50_merged_partial h.toGoodRun hm (by rw [hp]; simp : Op.push m sh d sr ∈ ops)
      rw [ho] at ho'; cases ho'
      have : o.size = offsetOf m ops := hsz
      rw [this, hp, offsetOf_append, offsetOf_cons]; omega
    have t₁ := tot hm₁ hp₁ ho₁
    have t₂ := tot hm₂ hp₂ ho₂
    rcases h.toGoodRun.apart hm hm₁ hm₂ hq₁ hq₂ ho₁ ho₂ (hal₁ _ (by rw [ho₁]; simp)) (hal₂ _ (by rw [ho₂]; simp)) with h1 | h1
    · left; omega
    · right; omega

/-- the entry point -/
theorem Run.entry (h : Run opts ops sched w w' file secs) :
    (∀ e, w.symstr.get b!"_start" = some e → ∃ y, w'.symtab.get (.named (u32 e.offset)) = some y ∧ w'.eh.e_entry = y.sym.st_value) ∧
    (w.symstr.get b!"_start" = none → w'.eh.e_entry = 0) := by
  obtain ⟨st, rfl⟩ := h.stages
  obtain ⟨entry, s, ph, phs, _, _, h1, h2, _, h3⟩ := finishHeader_ok st.hfinal
  obtain ⟨f1, f2, f3, f4, f5, f6, f7, _⟩ := st.final_post
  obtain ⟨_, g2, _, g4, _⟩ := st.sorted_rest
  have hs : st.tables.symstr = w.symstr := by
    rw [← g2, ← f5, h3]
  have ht : st.final.symtab = st.tables.symtab := by rw [h3]
  have he : st.final.eh.e_entry = entry := by rw [h3]
  rw [hs] at h1 h2
  refine ⟨fun e h' => ?_, fun h' => ?_⟩
  · rw [ht, he]; exact h1 e h'
  · rw [he, h2 h', f7, g4, h.hist.untouched.eh]; rfl

/-- **C57**: if an input mentions `_start`, the symbol table of the output has exactly one entry for it, and the entry point of the output is its
value. If no input has a symbol of that name, the entry point is 0. -/
theorem C57_entry (h : GoodLink opts ops sched w w' file secs) :
    (∀ s sec, Mention ops s sec b!"_start" → ∃ y, symbolsNamed file b!"_start" = [y] ∧ (decodeEhdr file).entry = y.value) ∧
    ((∀ s sec path r, Op.sym s sec b!"_start" path r ∉ ops) → (decodeEhdr file).entry = 0) := by
  obtain ⟨ns, nd, T⟩ := h.run.hist.tableFacts
  have he : (decodeEhdr file).entry = w'.eh.e_entry := by rw [(h.run.reads h.good h.names h.fit).ehdr]
  rw [he]
  refine ⟨fun s sec hm => ?_, fun hno => ?_⟩
  · obtain ⟨⟨path, r, hop⟩, _⟩ := hm
    have hns : b!"_start" ∈ ns := (T.symNames _).2 (.inr (mem_symNames hop))
    obtain ⟨e, h1, h2⟩ := Holds.get_mem T.symstr hns
    obtain ⟨y, hy, hv⟩ := h.run.entry.1 e h1
    rw [h2] at hy
    exact ⟨y.sym.toSpec, h.symbol_named T hns hy, hv⟩
  · refine h.run.entry.2 ?_
    cases hg : w.symstr.get b!"_start" with
    | none => rfl
    | some e =>
      rcases (T.symNames _).1 (Holds.get_some T.symstr hg).1 with h1 | h1
      · cases h1
      · obtain ⟨s, sec, path, r, hop⟩ := mem_symNames_iff.1 h1
        exact absurd hop (hno _ _ _ _)

/-- **C58**: if the inputs mention `_GLOBAL_OFFSET_TABLE_` and none of them defines it in a section, the symbol table of the output has exactly
one entry for it; its value is the address of the section `.got.plt`, and its section index is that of `.got.plt`. -/
theorem C58_got (h : GoodLink opts ops sched w w' file secs) {s : Sym} {sec : Option SectionRef} (hm : Mention ops s sec b!"_GLOBAL_OFFSET_TABLE_")
    (hno : ∀ s sec sr, Mention ops s sec b!"_GLOBAL_OFFSET_TABLE_" → ¬ Attached ops s sec sr) :
    ∃ o y, sectionsNamed file b!".got.plt" = [o] ∧ symbolsNamed file b!"_GLOBAL_OFFSET_TABLE_" = [y] ∧ y.value = o.addr ∧
      (shdrs file)[y.shndx]? = some o := by
  obtain ⟨ns, nd, T⟩ := h.run.hist.tableFacts
  obtain ⟨⟨path, r, hop⟩, h3⟩ := hm
  have hns : b!"_GLOBAL_OFFSET_TABLE_" ∈ ns := (T.symNames _).2 (.inr (mem_symNames hop))
  have hr := (T.inv.sref _ _ _ _ _ hop).2 h3
  obtain ⟨st, hst⟩ := h.run.stages
  have hun : Unbound w.symstr (.named (u32 (nameOff ns b!"_GLOBAL_OFFSET_TABLE_"))) := by
    have key : ∀ m, m ≠ b!"_GLOBAL_OFFSET_TABLE_" → NotNamed w.symstr (.named (u32 (nameOff ns b!"_GLOBAL_OFFSET_TABLE_"))) m := by
      intro m hne e he hr
      obtain ⟨h1, h2⟩ := Holds.get_some T.symstr he
      rw [h2] at hr
      exact hne (u32_nameOff_inj T.symstr h.symstr h1 hns (SymbolRef.named.inj hr))
    exact ⟨key _ (by decide), key _ (by decide), key _ (by decide), key _ (by decide)⟩
  have h1 := h.toGoodRun.unplaced_symbol st hst hun (fun sr hin => Nat.lt_of_not_le fun hf => by
    obtain ⟨s', hm', ha'⟩ := h.noted_attached T hns hin hf
    exact hno _ _ _ hm' ha')
  obtain ⟨_, g, hg, h2⟩ := special_unbound (by rw [st.patched_symstr]; exact hun) st.hspecial
  obtain ⟨e, he, heo⟩ := Holds.get_mem T.symstr hns
  rw [st.patched_symstr, he] at h2
  simp only [heo] at h2
  rw [SymbolTable.get_modify, if_pos rfl] at h2
  obtain ⟨x, hx⟩ := Option.isSome_iff_exists.1 (T.inv.sref _ _ _ _ _ hop).1
  rw [hr] at hx
  obtain ⟨x', hx', _⟩ := SymbolTable.view_get_some st.patched_sym.symm hx
  rw [hx', Option.map_some] at h2
  rw [h2, Option.map_some] at h1
  obtain ⟨y, hy, hys⟩ := Option.map_eq_some_iff.1 h1
  obtain ⟨t, ht, htp, hsn⟩ := h.toGoodRun.own (p := P.gotPlt) (by cases opts.hashStyle <;> decide)
  obtain ⟨hgm, hgp⟩ := sec_ok hg
  obtain ⟨i, _, hi, s', hs', hpost, hfin⟩ := h.run.same_section h.good.flags (by rw [← hst]; exact st.posts.2.2.1) hgm ht (by rw [htp, hgp])
  obtain ⟨hdr, lst, hL⟩ := h.run.laid h.good.flags
  refine ⟨t.sh.toSpec, y.sym.toSpec, hsn, h.symbol_named T hns hy, ?_, ?_⟩
  · show y.sym.st_value = t.sh.sh_addr
    rw [hys, hfin.addr]
    exact congrArg (·.2.2.2.2.sh_addr) hpost
  · show (shdrs file)[y.sym.st_shndx]? = _
    rw [hys]
    have : g.index = i := (congrArg (·.2.1) hpost).trans (hL.index i s' hs')
    show (shdrs file)[u16 g.index]? = _
    rw [this]
    exact h.shndx hi

/-! ### Concrete links -/

/-- a check of `Decides` -/
def decidesB (a : List Op) (s : Sym) (sr : SectionRef) (n : Name) (b : List Op) : Bool :=
  s.st_info % 16 != 3 && s.st_shndx != 0 && s.st_shndx != 0xfff1 && decide (s.st_info / 16 ≤ 2) &&
  a.all (fun
    | .sym s' _ n' _ _ => n' != n || s'.st_info % 16 == 3 || decide (s'.st_info / 16 ≤ 2 ∧ bindRank s' < bindRank s)
    | _ => true) &&
  b.all (fun
    | .sym s' _ n' _ _ => n' != n || s'.st_info % 16 == 3 || decide (s'.st_info / 16 ≤ 2 ∧ bindRank s' ≤ bindRank s)
    | _ => true) &&
  (a ++ b).all (fun
    | .sym s' (some sr') n' _ _ => n' != n || s'.st_info % 16 == 3 || s'.st_shndx == 0xfff1 || sr' == sr ||
        (a ++ b).any (fun
          | .push m _ _ sr2 => m == [] && sr2 == sr'
          | _ => false)
    | _ => true)

theorem Spec.Decides.of_check {a b : List Op} {s : Sym} {sr : SectionRef} {n : Name} (h : decidesB a s sr n b = true) : Decides a s sr n b := by
  simp only [decidesB, Bool.and_eq_true, List.all_eq_true, bne_iff_ne, decide_eq_true_eq] at h
  obtain ⟨⟨⟨⟨⟨⟨h1, h2⟩, h3⟩, h4⟩, h5⟩, h6⟩, h7⟩ := h
  refine ⟨h1, h2, h3, h4, ?_, ?_, ?_⟩
  · rintro s' sec ⟨⟨path, r, hm⟩, ht⟩
    have := h5 _ hm
    simpa [ht] using this
  · rintro s' sec ⟨⟨path, r, hm⟩, ht⟩
    have := h6 _ hm
    simpa [ht] using this
  · rintro s' sec sr' ⟨⟨path, r, hm⟩, ht⟩ ⟨rfl, habs, hnull⟩
    have := h7 _ hm
    simp only [bne_self_eq_false, Bool.false_or, beq_iff_eq, ht, habs, Bool.or_eq_true, List.any_eq_true, false_or] at this
    rcases this with h | ⟨op, hop, h⟩
    · exact h
    · cases op with
      | push m sh d sr2 =>
        simp only [Bool.and_eq_true, beq_iff_eq] at h
        obtain ⟨rfl, rfl⟩ := h
        exact absurd hop (hnull _ _)
      | _ => cases h

/-- a weak symbol -/
def weakSym (type shndx value size : Nat) : Sym :=
  { st_info := 2 * 16 + type, st_shndx := shndx, st_value := value, st_size := size }

/-- the first object: code with `_start` at offset 4 -/
def firstObject : List Op :=
  [ .push [] {} (some []) ⟨0, 0⟩,
    .push b!".text" (demoSh SHT_PROGBITS 6 16 16) (some (List.replicate 16 0x90)) ⟨16, 0⟩,
    .sym (demoSym STT_FUNC 1 4 12) (some ⟨16, 0⟩) b!"_start" demoPath (.named 1) ]

/-- the code of the second object -/
def secondText : Op := .push b!".text" (demoSh SHT_PROGBITS 6 16 16) (some (List.replicate 16 0xcc)) ⟨16, 1⟩

/-- `f` is weakly defined at offset 2 of the first object (not attached to a section), then defined at offset 8 of the second, then referred to -/
def decidedOps : List Op := firstObject ++
  [ .sym (weakSym STT_FUNC 0 0 0) (some ⟨0, 0⟩) b!"f" demoPath (.named 8), secondText,
    .sym (demoSym STT_FUNC 1 8 4) (some ⟨16, 1⟩) b!"f" demoPath (.named 8),
    .sym (demoSym 0 0 0 0) (some ⟨0, 0⟩) b!"f" demoPath (.named 8) ]

theorem decided_good : goodOps decidedOps = true ∧ cleanSyms decidedOps = true := by decide +kernel

/-- a definition at offset 8 of the second code section, of which the first has 16 bytes: the hypotheses of `C53_partial` hold, and the value is
24 above the address of `.text` -/
example : ∃ w w' f s, GoodLink Options.default decidedOps Sched.rev w w' f s ∧
    Decides (decidedOps.take 5) (demoSym STT_FUNC 1 8 4) ⟨16, 1⟩ b!"f" (decidedOps.drop 6) ∧ b!"f" ∉ linkerSymbols ∧
    decidedOps = decidedOps.take 5 ++ Op.sym (demoSym STT_FUNC 1 8 4) (some ⟨16, 1⟩) b!"f" demoPath (.named 8) :: decidedOps.drop 6 ∧
    decidedOps = decidedOps.take 4 ++ secondText :: decidedOps.drop 5 ∧ offsetOf b!".text" (decidedOps.take 4) = 16 ∧
    (match sectionsNamed f b!".text", symbolsNamed f b!"f" with
      | [o], [y] => y.value == o.addr + 24
      | _, _ => false) = true := by
  obtain ⟨w, w', f, s, h, hp⟩ := GoodLink.of_runs (opts := .default) (ops := decidedOps) (sched := .rev)
    (P := fun w w' _ s => match secsNamed w s b!".text", symsNamed .rev w w' b!"f" with
      | [o], [y] => y.value == o.addr + 24
      | _, _ => false) Sched.rev_valid decided_good.1 decided_good.2 (by decide +kernel)
  simp only [h.secsNamed_eq, h.symsNamed_eq] at hp
  exact ⟨w, w', f, s, h, .of_check (by decide +kernel), by decide, by decide +kernel, by decide +kernel, by decide +kernel, hp⟩

/-- `f` is referred to by the first object and defined at offset 8 of the second -/
def lateOps : List Op := firstObject ++
  [ .sym (demoSym 0 0 0 0) (some ⟨0, 0⟩) b!"f" demoPath (.named 8), secondText,
    .sym (demoSym STT_FUNC 1 8 4) (some ⟨16, 1⟩) b!"f" demoPath (.named 8) ]

theorem late_good : goodOps lateOps = true ∧ cleanSyms lateOps = true := by decide +kernel

/-- **C53 is violated**: an object refers to `f`, and a later one defines it, once, at offset 8 of its code section, which starts 16 bytes after the
start of `.text`. The link succeeds, and `f` gets the address of the start of the code section instead: its offset is lost. -/
theorem C53_violated : ∃ w w' f s o y, GoodLink Options.default lateOps Sched.id w w' f s ∧
    lateOps = lateOps.take 4 ++ secondText :: [Op.sym (demoSym STT_FUNC 1 8 4) (some ⟨16, 1⟩) b!"f" demoPath (.named 8)] ∧
    (∀ s sec sr, Mention lateOps s sec b!"f" → Attached lateOps s sec sr → s = demoSym STT_FUNC 1 8 4 ∧ sr = ⟨16, 1⟩) ∧
    sectionsNamed f b!".text" = [o] ∧ symbolsNamed f b!"f" = [y] ∧ offsetOf b!".text" (lateOps.take 4) = 16 ∧
    y.value = o.addr + 16 ∧ y.value ≠ o.addr + offsetOf b!".text" (lateOps.take 4) + 8 := by
  obtain ⟨w, w', f, s, h, hp⟩ := GoodLink.of_runs (opts := .default) (ops := lateOps) (sched := .id)
    (P := fun w w' _ s => match secsNamed w s b!".text", symsNamed .id w w' b!"f" with
      | [o], [y] => y.value == o.addr + 16
      | _, _ => false) Sched.id_valid late_good.1 late_good.2 (by decide +kernel)
  simp only [h.secsNamed_eq, h.symsNamed_eq] at hp
  split at hp
  · next o y ho hy =>
    simp only [beq_iff_eq] at hp
    have h16 : offsetOf b!".text" (lateOps.take 4) = 16 := by decide +kernel
    refine ⟨w, w', f, s, o, y, h, by decide +kernel, ?_, ho, hy, h16, hp, by omega⟩
    rintro s sec sr ⟨⟨path, r, hm⟩, _⟩ ⟨rfl, _, hnull⟩
    simp only [lateOps, firstObject, secondText, List.cons_append, List.nil_append, List.mem_cons, List.not_mem_nil, or_false, reduceCtorEq,
      false_or, Op.sym.injEq, Option.some.injEq] at hm
    rcases hm with ⟨_, _, h, _⟩ | ⟨_, rfl, _⟩ | ⟨rfl, rfl, _⟩
    · exact absurd h (by decide)
    · exact absurd (by simp [lateOps, firstObject]) (hnull {} (some []))
    · exact ⟨rfl, rfl⟩
  · cases hp

/-- a check that `n` is attached to `sr` only -/
def attachedOnlyB (ops : List Op) (n : Name) (sr : SectionRef) : Bool :=
  ops.all (fun
    | .sym s' (some sr') n' _ _ => n' != n || s'.st_info % 16 == 3 || s'.st_shndx == 0xfff1 || sr' == sr ||
        ops.any (fun
          | .push m _ _ sr2 => m == [] && sr2 == sr'
          | _ => false)
    | _ => true)

theorem attachedOnly_of_check {ops : List Op} {n : Name} {sr : SectionRef} (h : attachedOnlyB ops n sr = true) :
    ∀ s' sec' sr', Mention ops s' sec' n → Attached ops s' sec' sr' → sr' = sr := by
  rintro s' sec sr' ⟨⟨path, r, hm⟩, ht⟩ ⟨rfl, habs, hnull⟩
  have := List.all_eq_true.1 h _ hm
  simp only [bne_self_eq_false, Bool.false_or, beq_iff_eq, ht, habs, Bool.or_eq_true, List.any_eq_true, false_or] at this
  rcases this with h | ⟨op, hop, h⟩
  · exact h
  · split at h
    · next m sh d sr2 =>
      simp only [Bool.and_eq_true, beq_iff_eq] at h
      obtain ⟨rfl, rfl⟩ := h
      exact absurd hop (hnull _ _)
    · cases h

/-- a name that is mentioned first and defined later: the hypotheses of `C54_partial` hold, and the value is the base of one section (plus zero:
the mention that decides is the first one) -/
example : ∃ w w' f s, GoodLink Options.default lateOps Sched.id w w' f s ∧
    Mention lateOps (demoSym STT_FUNC 1 8 4) (some ⟨16, 1⟩) b!"f" ∧ Attached lateOps (demoSym STT_FUNC 1 8 4) (some ⟨16, 1⟩) ⟨16, 1⟩ ∧
    (∀ s' sec' sr', Mention lateOps s' sec' b!"f" → Attached lateOps s' sec' sr' → sr' = ⟨16, 1⟩) ∧
    lateOps = lateOps.take 4 ++ secondText :: lateOps.drop 5 ∧
    (match sectionsNamed f b!".text", symbolsNamed f b!"f" with
      | [o], [y] => y.value == o.addr + 16
      | _, _ => false) = true := by
  obtain ⟨w, w', f, s, h, hp⟩ := GoodLink.of_runs (opts := .default) (ops := lateOps) (sched := .id)
    (P := fun w w' _ s => match secsNamed w s b!".text", symsNamed .id w w' b!"f" with
      | [o], [y] => y.value == o.addr + 16
      | _, _ => false) Sched.id_valid late_good.1 late_good.2 (by decide +kernel)
  simp only [h.secsNamed_eq, h.symsNamed_eq] at hp
  refine ⟨w, w', f, s, h, ⟨⟨demoPath, .named 8, by decide +kernel⟩, by decide⟩, ⟨rfl, by decide, ?_⟩, attachedOnly_of_check (by decide +kernel),
    by decide +kernel, hp⟩
  intro sh d hc
  have : ∀ op ∈ lateOps, (match op with | .push m _ _ sr => m != [] || sr != ⟨16, 1⟩ | _ => true) = true := by decide +kernel
  exact absurd (this _ hc) (by simp)

/-- `f` is weakly defined at offset 4 of the first object and at offset 0 of the second -/
def weakOps : List Op := firstObject ++
  [ .sym (weakSym STT_FUNC 1 4 4) (some ⟨16, 0⟩) b!"f" demoPath (.named 8), secondText,
    .sym (weakSym STT_FUNC 1 0 4) (some ⟨16, 1⟩) b!"f" demoPath (.named 8) ]

theorem weak_good : goodOps weakOps = true ∧ cleanSyms weakOps = true := by decide +kernel

/-- **C54 is violated**: two objects define the weak function `f`, as compilers do for inline functions. The link succeeds, and the addresses of
both code sections are added to the value of `f`, which then lies outside of `.text`. -/
theorem C54_violated : ∃ w w' f s o y, GoodLink Options.default weakOps Sched.id w w' f s ∧
    sectionsNamed f b!".text" = [o] ∧ symbolsNamed f b!"f" = [y] ∧ y.value = (o.addr + 4) + (o.addr + 16) ∧
    o.addr + o.size < y.value := by
  obtain ⟨w, w', f, s, h, hp⟩ := GoodLink.of_runs (opts := .default) (ops := weakOps) (sched := .id)
    (P := fun w w' _ s => match secsNamed w s b!".text", symsNamed .id w w' b!"f" with
      | [o], [y] => y.value == (o.addr + 4) + (o.addr + 16) && decide (o.addr + o.size < y.value)
      | _, _ => false) Sched.id_valid weak_good.1 weak_good.2 (by decide +kernel)
  simp only [h.secsNamed_eq, h.symsNamed_eq] at hp
  split at hp
  · next o y ho hy =>
    simp only [beq_iff_eq, Bool.and_eq_true, decide_eq_true_eq] at hp
    exact ⟨w, w', f, s, o, y, h, ho, hy, hp.1, hp.2⟩
  · cases hp

/-- two objects, each with a zero-fill section of 8 bytes that holds one variable -/
def bssOps : List Op := firstObject ++
  [ .push b!".bss" (demoSh SHT_NOBITS 3 8 8) none ⟨17, 0⟩,
    .sym (demoSym STT_OBJECT 2 0 8) (some ⟨17, 0⟩) b!"x" demoPath (.named 8),
    .push b!".bss" (demoSh SHT_NOBITS 3 8 8) none ⟨17, 0⟩,
    .sym (demoSym STT_OBJECT 2 0 8) (some ⟨17, 0⟩) b!"y" demoPath (.named 10) ]

theorem bss_good : goodOps bssOps = true ∧ cleanSyms bssOps = true := by decide +kernel

/-- **C55 is violated**: two objects have a variable each in their `.bss` sections. The output section has room for both, but both variables get
the same address. -/
theorem C55_violated : ∃ w w' f s o x y, GoodLink Options.default bssOps Sched.id w w' f s ∧
    sectionsNamed f b!".bss" = [o] ∧ o.size = 16 ∧ symbolsNamed f b!"x" = [x] ∧ symbolsNamed f b!"y" = [y] ∧ x.size = 8 ∧ y.size = 8 ∧
    x.value = y.value := by
  obtain ⟨w, w', f, s, h, hp⟩ := GoodLink.of_runs (opts := .default) (ops := bssOps) (sched := .id)
    (P := fun w w' _ s => match secsNamed w s b!".bss", symsNamed .id w w' b!"x", symsNamed .id w w' b!"y" with
      | [o], [x], [y] => decide (o.size = 16 ∧ x.size = 8 ∧ y.size = 8 ∧ x.value = y.value)
      | _, _, _ => false) Sched.id_valid bss_good.1 bss_good.2 (by decide +kernel)
  simp only [h.secsNamed_eq, h.symsNamed_eq] at hp
  split at hp
  · next o x y ho hx hy =>
    simp only [decide_eq_true_eq] at hp
    exact ⟨w, w', f, s, o, x, y, h, ho, hp.1, hx, hy, hp.2⟩
  · cases hp

/-- the hypotheses of `C55_partial` hold for a function of each of two code sections -/
example : ∃ w w' f s, GoodLink Options.default decidedOps Sched.rev w w' f s ∧
    Decides (decidedOps.take 2) (demoSym STT_FUNC 1 4 12) ⟨16, 0⟩ b!"_start" (decidedOps.drop 3) ∧
    Decides (decidedOps.take 5) (demoSym STT_FUNC 1 8 4) ⟨16, 1⟩ b!"f" (decidedOps.drop 6) ∧
    (∀ o ∈ sectionsNamed f b!".text", o.flags.testBit 1 = true) ∧
    (match symbolsNamed f b!"_start", symbolsNamed f b!"f" with
      | [x], [y] => decide (x.size = 12 ∧ y.size = 4 ∧ x.value + x.size ≤ y.value)
      | _, _ => false) = true := by
  obtain ⟨w, w', f, s, h, hp⟩ := GoodLink.of_runs (opts := .default) (ops := decidedOps) (sched := .rev)
    (P := fun w w' _ s => (secsNamed w s b!".text").all (fun o => o.flags.testBit 1) && match symsNamed .rev w w' b!"_start", symsNamed .rev w w' b!"f" with
      | [x], [y] => decide (x.size = 12 ∧ y.size = 4 ∧ x.value + x.size ≤ y.value)
      | _, _ => false) Sched.rev_valid decided_good.1 decided_good.2 (by decide +kernel)
  simp only [h.secsNamed_eq, h.symsNamed_eq] at hp
  rw [Bool.and_eq_true, List.all_eq_true] at hp
  exact ⟨w, w', f, s, h, .of_check (by decide +kernel), .of_check (by decide +kernel), hp.1, hp.2⟩

/-- an object with `_start` at offset 4 of `.text` that mentions `_GLOBAL_OFFSET_TABLE_` -/
def gotOps : List Op := firstObject ++ [.sym (demoSym 0 0 0 0) (some ⟨0, 0⟩) b!"_GLOBAL_OFFSET_TABLE_" demoPath (.named 8)]

theorem got_good : goodOps gotOps = true ∧ cleanSyms gotOps = true := by decide +kernel

/-- `C57_entry` and `C58_got` -/
example : ∃ w w' f s, GoodLink Options.default gotOps Sched.id w w' f s ∧ (decodeEhdr f).entry = w'.eh.e_entry ∧
    (match sectionsNamed f b!".text", sectionsNamed f b!".got.plt", symbolsNamed f b!"_start", symbolsNamed f b!"_GLOBAL_OFFSET_TABLE_" with
      | [o], [p], [y], [g] => decide (w'.eh.e_entry = o.addr + 4 ∧ y.value = o.addr + 4 ∧ g.value = p.addr ∧ g.value ≠ 0)
      | _, _, _, _ => false) = true := by
  obtain ⟨w, w', f, s, h, hp⟩ := GoodLink.of_runs (opts := .default) (ops := gotOps) (sched := .id)
    (P := fun w w' _ s => match secsNamed w s b!".text", secsNamed w s b!".got.plt", symsNamed .id w w' b!"_start",
        symsNamed .id w w' b!"_GLOBAL_OFFSET_TABLE_" with
      | [o], [p], [y], [g] => decide (w'.eh.e_entry = o.addr + 4 ∧ y.value = o.addr + 4 ∧ g.value = p.addr ∧ g.value ≠ 0)
      | _, _, _, _ => false) Sched.id_valid got_good.1 got_good.2 (by decide +kernel)
  simp only [h.secsNamed_eq, h.symsNamed_eq] at hp
  exact ⟨w, w', f, s, h, by rw [(h.run.reads h.good h.names h.fit).ehdr], hp⟩

end Dld
