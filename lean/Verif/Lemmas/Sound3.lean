import Verif.Lemmas.Sound2
/-! # The size of a link of objects -/
namespace Dld
open Writer Spec StringTable SymbolTable

variable {env : Env} {l : Linker} {opts : Options} {ops : List Op} {w w' : Writer}

/-! ### How often a symbol is attached -/

theorem addSymbol_ref {s : Sym} {sec : Option SectionRef} {n : Name} {p : Path} {r : SymbolRef} (h : w.addSymbol s sec n p = .ok (w', r)) :
    (s.st_info % 16 = 3 ∧ (∃ k, r = .section s.st_shndx k) ∧ w.symtab.get r = none) ∨ (s.st_info % 16 ≠ 3 ∧ ∃ k, r = .named k) := by
  simp only [Writer.addSymbol] at h
  split at h
  · cases h
  · next t y ha =>
    simp only [bind_ok] at h
    obtain ⟨w1, _, h⟩ := h
    cases h
    simp only [SymbolTable.addSymbol] at ha
    split at ha
    · next h3 =>
      cases ha
      refine .inl ⟨h3, ⟨_, rfl⟩, ?_⟩
      unfold SymbolTable.get
      simp only []
      cases hg : AMap.get? w.symtab.sectionSyms s.st_shndx with
      | none => rfl
      | some l => exact List.getElem?_eq_none (Nat.le_refl _)
    · next h3 =>
      refine .inr ⟨h3, ?_⟩
      split at ha
      · split at ha
        · cases ha
        · cases ha; exact ⟨_, rfl⟩
      · cases ha; exact ⟨_, rfl⟩

theorem Hist.section_once (h : Hist opts ops w) (i k : Nat) : (ops.filter (Op.attaches (.section i k))).length ≤ 1 := by
  induction h with
  | init => simp
  | @step ops op w w' h hs ih =>
    rw [List.filter_append, List.length_append]
    cases ho : op.attaches (.section i k) with
    | false => simp [ho]; exact ih
    | true =>
      have : ops.filter (Op.attaches (.section i k)) = [] := by
        cases hs with
        | @sym _ s sec name path r ha =>
          rw [List.filter_eq_nil_iff]
          intro op' hm ha'
          have hr : r = .section i k := by
            cases sec with
            | none => cases ho
            | some sec => simp only [Op.attaches, Bool.and_eq_true, beq_iff_eq] at ho; exact ho.1
          have hnone : w.symtab.get r = none := by
            rcases addSymbol_ref ha with ⟨_, _, h⟩ | ⟨_, k', h⟩
            · exact h
            · rw [hr] at h; cases h
          cases op' with
          | sym s' sec' n' p' r' =>
            cases sec' with
            | none => cases ha'
            | some sec' =>
              simp only [Op.attaches, Bool.and_eq_true, beq_iff_eq] at ha'
              obtain ⟨ns, nd, T⟩ := h.tableFacts
              have := (T.inv.sref _ _ _ _ _ hm).1
              rw [ha'.1, ← hr, hnone] at this
              cases this
          | _ => cases ha'
        | _ => cases ho
      rw [this]
      simp [ho]

theorem Hist.sym_type (h : Hist opts ops w) {s : Sym} {sec : Option SectionRef} {n : Name} {p : Path} {k : Nat} (hm : Op.sym s sec n p (.named k) ∈ ops) :
    s.st_info % 16 ≠ 3 := by
  obtain ⟨a, b, e⟩ := List.append_of_mem hm
  obtain ⟨w1, w2, _, hs, _⟩ := h.split e
  cases hs with
  | sym ha =>
    rcases addSymbol_ref ha with ⟨_, ⟨k', h⟩, _⟩ | ⟨h, _⟩
    · cases h
    · exact h

/-- sections without a name go to the null section -/
theorem Hist.unnamed_null (h : Hist opts ops w) {sh : SectionHeader} {d : Option Bytes} {r : SectionRef} (hm : Op.push [] sh d r ∈ ops) : r.ptr = P.null := by
  obtain ⟨w0, pn, h0, hI⟩ := h.winv
  obtain ⟨_, i, h1, h2⟩ := h.cinv.push _ _ _ _ hm
  rw [Holds.keys hI.names] at h1
  have hz : (tabNames opts.hashStyle ++ pn)[0]? = some [] := by
    cases opts.hashStyle <;> rfl
  have hi : i = 0 := by
    have hn := hI.names.nodup
    have hl1 := (List.getElem?_eq_some_iff.1 h1)
    have hl2 := (List.getElem?_eq_some_iff.1 hz)
    obtain ⟨g1, e1⟩ := hl1
    obtain ⟨g2, e2⟩ := hl2
    exact (List.getElem_inj hn).1 (e1.trans e2.symm)
  subst hi
  rw [hI.ptrs h0] at h2
  have : ((baseIdents opts.hashStyle).map (·.1) ++ List.range' P.first pn.length)[0]? = some P.null := by
    cases opts.hashStyle <;> rfl
  rw [this] at h2
  exact (Option.some.inj h2).symm

namespace Calls
variable {N : List Call → Name → Prop} {loaded : List Loaded} {log : List Call} {F : List Nat} {V K : Nat}

/-! ### Sums over the calls -/

/-- the file of a source -/
def fileOf (loaded : List Loaded) (src : Source) : Option Loaded := loaded.find? fun x => x.source = src

theorem fileOf_eq (h : Calls env l N loaded log) {x : Loaded} (hx : x ∈ loaded) : fileOf loaded x.source = some x := by
  unfold fileOf
  cases hf : loaded.find? fun y => decide (y.source = x.source) with
  | none => exact absurd (by simp) (List.find?_eq_none.1 hf x hx)
  | some y =>
    have h1 : y.source = x.source := by simpa using List.find?_some hf
    rw [h.unique (List.mem_of_find?_eq_some hf) hx h1]

/-- what a call for an item of a file costs -/
def itemCost (x : Loaded) : Item → Nat
  | .section i => ((x.elf.sectionHeaders[i]?).map fun sh => sh.sh_size + ((x.elf.secName sh.sh_name).getD []).length + 4400).getD 0
  | .symbol j => ((x.elf.syms[j]?).map fun s => ((x.elf.symName s.st_name).getD []).length + 200).getD 0
  | .reloc _ _ => 64
  | _ => 0

def keyCost (loaded : List Loaded) (k : Source × Item) : Nat := ((fileOf loaded k.1).map fun x => itemCost x k.2).getD 0

theorem cost_key (h : Calls env l N loaded log) (hlib : l.options.sharedLibs = []) {c : Call} (hc : c ∈ log) :
    c.op.cost = keyCost loaded (c.source, c.item) ∧ (c.item.isSection = true ∨ c.item.isOther = true) := by
  have hnolib : ∀ p j op, (⟨.library p, .dynsym j, op⟩ : Call) ∉ log := by
    intro p j op hm
    obtain ⟨a, b, e⟩ := List.append_of_mem hm
    have := h.just a _ b e
    generalize hcc : (⟨.library p, .dynsym j, op⟩ : Call) = cc at this
    cases this with
    | dynsym hp => rw [hlib] at hp; cases hp
    | «section» => cases congrArg Call.item hcc
    | symbol => cases congrArg Call.item hcc
    | reloc => cases congrArg Call.item hcc
    | needed => cases congrArg Call.item hcc
  obtain ⟨a, b, e⟩ := List.append_of_mem hc
  cases h.just a c b e with
  | «section» hx hi ht hn hd =>
    refine ⟨?_, .inl rfl⟩
    simp only [keyCost, h.fileOf_eq hx, Option.map_some, Option.getD_some, itemCost, hi, hn, Op.cost]
  | symbol hx hj hn hs =>
    refine ⟨?_, .inr rfl⟩
    simp only [keyCost, h.fileOf_eq hx, Option.map_some, Option.getD_some, itemCost, hj, hn, Op.cost]
  | reloc hx hk h0 hs hr hy =>
    refine ⟨?_, .inr rfl⟩
    simp only [keyCost, h.fileOf_eq hx, Option.map_some, Option.getD_some, itemCost, Op.cost]
  | dynsym hp => rw [hlib] at hp; cases hp
  | @needed p j f b' op hf hb => exact absurd (by rw [e, hb]; simp) (hnolib p j op)

theorem sum_parts {log : List Call} {f : Call → Nat} (h : ∀ c ∈ log, c.item.isSection = true ∨ c.item.isOther = true) :
    (log.map f).sum = ((log.filter fun c => c.item.isSection).map f).sum + ((log.filter fun c => c.item.isOther).map f).sum := by
  induction log with
  | nil => rfl
  | cons c log ih =>
    have ih := ih fun c hc => h c (by simp [hc])
    have hc := h c (by simp)
    rw [List.map_cons, List.sum_cons, ih]
    cases hi : c.item <;> simp [hi, Item.isSection, Item.isOther] at hc ⊢ <;> omega

theorem sum_keys {log : List Call} {f : Call → Nat} {g : Source × Item → Nat} (p : Call → Bool) (h : ∀ c ∈ log, f c = g (c.source, c.item)) :
    ((log.filter p).map f).sum = (((log.filter p).map fun c => (c.source, c.item)).map g).sum := by
  rw [List.map_map]
  congr 1
  exact List.map_congr_left fun c hc => h c (List.mem_filter.1 hc).1

theorem sum_flatMap {α β : Type} {xs : List α} {f : α → List β} {g : β → Nat} {c : α → Nat} (h : ∀ x ∈ xs, ((f x).map g).sum = c x) :
    ((xs.flatMap f).map g).sum = (xs.map c).sum := by
  induction xs with
  | nil => rfl
  | cons x xs ih =>
    rw [List.flatMap_cons, List.map_append, List.sum_append, List.map_cons, List.sum_cons, ih fun y hy => h y (by simp [hy]), h x (by simp)]

theorem sum_range {α : Type} (xs : List α) (f : α → Nat) : ((List.range xs.length).map fun j => ((xs[j]?).map f).getD 0).sum = (xs.map f).sum := by
  congr 1
  apply List.ext_getElem
  · simp
  · intro i h1 h2
    simp at h1
    simp [h1]

/-- the cost of the calls of a link of objects is that of the objects -/
theorem cost_eq (h : Calls env l N loaded log) (hlib : l.options.sharedLibs = []) :
    ((opsOf log).map Op.cost).sum = (loaded.map fun x => x.elf.cost).sum := by
  have h1 : ((opsOf log).map Op.cost).sum = (log.map fun c => c.op.cost).sum := by unfold opsOf; rw [List.map_map]; rfl
  rw [h1, sum_parts fun c hc => (h.cost_key hlib hc).2, sum_keys _ (fun c hc => (h.cost_key hlib hc).1), sum_keys _ (fun c hc => (h.cost_key hlib hc).1)]
  show ((sectionCalls log).map _).sum + ((otherCalls log).map _).sum = _
  rw [h.sections, h.others,
    sum_flatMap (c := fun x => (x.elf.copied.map fun y => y.1.sh_size + ((x.elf.secName y.1.sh_name).getD []).length + 4400).sum),
    sum_flatMap (c := fun x => (x.elf.syms.map fun s => ((x.elf.symName s.st_name).getD []).length + 200).sum + 64 * x.elf.usedRelocs.length)]
  · have : ∀ ys : List Loaded, (ys.map fun x => (x.elf.copied.map fun y => y.1.sh_size + ((x.elf.secName y.1.sh_name).getD []).length + 4400).sum).sum +
        (ys.map fun x => (x.elf.syms.map fun s => ((x.elf.symName s.st_name).getD []).length + 200).sum + 64 * x.elf.usedRelocs.length).sum =
        (ys.map fun x => x.elf.cost).sum := by
      intro ys
      induction ys with
      | nil => rfl
      | cons y ys ih => simp only [List.map_cons, List.sum_cons, ElfFile.cost] at ih ⊢; omega
    exact this loaded
  · intro x hx
    unfold Loaded.otherKeys
    rw [List.map_append, List.sum_append, List.map_map, List.map_map, ← sum_range x.elf.syms]
    congr 1
    · congr 1
      apply List.map_congr_left
      intro j _
      simp only [Function.comp, keyCost, h.fileOf_eq hx, Option.map_some, Option.getD_some, itemCost]
    · generalize x.elf.usedRelocs = us
      induction us with
      | nil => rfl
      | cons u us ih =>
        rw [List.map_cons, List.sum_cons, ih]
        simp only [Function.comp, keyCost, h.fileOf_eq hx, Option.map_some, Option.getD_some, itemCost, List.length_cons]
        omega
  · intro x hx
    unfold Loaded.sectionKeys
    rw [List.map_map]
    congr 1
    apply List.map_congr_left
    intro y hy
    unfold ElfFile.copied at hy
    rw [List.mem_filter, List.mem_zipIdx_iff_getElem?] at hy
    simp only [Function.comp, keyCost, h.fileOf_eq hx, Option.map_some, Option.getD_some, itemCost, hy.1]

/-! ### How often a name is defined -/

/-- a definition of the name -/
def defines (n : Name) (x : Loaded) : Item → Bool
  | .symbol j => (x.elf.syms[j]?).any fun s => s.st_info % 16 ≠ 3 ∧ s.st_shndx ≠ 0 ∧ x.elf.symName s.st_name = some n
  | _ => false

def keyDefines (loaded : List Loaded) (n : Name) (k : Source × Item) : Bool := (fileOf loaded k.1).any fun x => defines n x k.2

theorem length_flatMap_filter {α β : Type} {xs : List α} {f : α → List β} {p : β → Bool} {c : α → Nat} (h : ∀ x ∈ xs, ((f x).filter p).length = c x) :
    ((xs.flatMap f).filter p).length = (xs.map c).sum := by
  induction xs with
  | nil => rfl
  | cons x xs ih =>
    rw [List.flatMap_cons, List.filter_append, List.length_append, List.map_cons, List.sum_cons, ih fun y hy => h y (by simp [hy]), h x (by simp)]

theorem length_range_filter {α : Type} (p : α → Bool) (xs : List α) : ((List.range xs.length).filter fun j => (xs[j]?).any p).length = (xs.filter p).length := by
  induction xs with
  | nil => rfl
  | cons x xs ih =>
    rw [List.length_cons, List.range_succ_eq_map, List.filter_cons, List.filter_map, List.filter_cons]
    simp only [List.getElem?_cons_zero, Option.any_some]
    have : ((List.range xs.length).filter ((fun j => ((x :: xs)[j]?).any p) ∘ Nat.succ)).length = (xs.filter p).length := by
      rw [← ih]; rfl
    split <;> simp [this]

theorem definitions_eq (h : Calls env l N loaded log) (n : Name) :
    ((otherCalls log).filter (keyDefines loaded n)).length = (loaded.map fun x => x.elf.definitions n).sum := by
  rw [h.others]
  apply length_flatMap_filter
  intro x hx
  unfold Loaded.otherKeys ElfFile.definitions
  rw [List.filter_append, List.length_append, List.filter_map, List.filter_map, List.length_map, List.length_map, ← length_range_filter _ x.elf.syms]
  have : x.elf.usedRelocs.filter (keyDefines loaded n ∘ fun y => (x.source, Item.reloc y.1 y.2.2.1)) = [] := by
    rw [List.filter_eq_nil_iff]
    intro y _
    simp [Function.comp, keyDefines, h.fileOf_eq hx, defines]
  rw [this, List.length_nil, Nat.add_zero]
  congr 2
  funext j
  simp only [Function.comp, keyDefines, h.fileOf_eq hx, Option.any_some, defines]

theorem attaches_le (h : Calls env l N loaded log) (hh : Hist opts (opsOf log) w) (hc : CleanFiles env l) (hn : NamesSmall env l)
    (hK : 1 ≤ K ∧ ∀ n, (loaded.map fun x => x.elf.definitions n).sum ≤ K) (r : SymbolRef) : ((opsOf log).filter (Op.attaches r)).length ≤ K := by
  cases r with
  | «section» i k => exact Nat.le_trans (hh.section_once i k) hK.1
  | named k =>
    by_cases hex : ∃ op ∈ opsOf log, Op.attaches (.named k) op = true
    · obtain ⟨op, hop, ha⟩ := hex
      have hlt := h.symstr_small hh hn
      obtain ⟨ns, nd, T⟩ := hh.tableFacts
      have look : ∀ op, op ∈ opsOf log → Op.attaches (.named k) op = true → ∃ s sec n p, op = .sym s (some sec) n p (.named k) ∧ sec.ptr ≠ P.null ∧ n ∈ ns ∧
          k = u32 (nameOff ns n) ∧ s.st_info % 16 ≠ 3 := by
        intro op hop ha
        cases op with
        | sym s sec n p r =>
          cases sec with
          | none => cases ha
          | some sec =>
            simp only [Op.attaches, Bool.and_eq_true, beq_iff_eq, bne_iff_ne] at ha
            obtain ⟨rfl, hne⟩ := ha
            have h3 := hh.sym_type hop
            have := (T.inv.sref _ _ _ _ _ hop).2 h3
            exact ⟨s, sec, n, p, rfl, hne, (T.symNames n).2 (.inr (mem_symNames hop)), SymbolRef.named.inj this, h3⟩
        | _ => cases ha
      obtain ⟨s0, sec0, n, p0, rfl, _, hn0, hk0, _⟩ := look op hop ha
      refine Nat.le_trans ?_ (hK.2 n)
      rw [← h.definitions_eq n]
      unfold opsOf otherCalls
      rw [List.filter_map, List.length_map, List.filter_map, List.length_map, List.filter_filter]
      refine (List.Sublist.length_le ?_)
      have : log.filter (Op.attaches (.named k) ∘ fun c => c.op) = log.filter fun c => (Op.attaches (.named k) c.op) && ((keyDefines loaded n ∘ fun c => (c.source, c.item)) c && c.item.isOther) := by
        apply List.filter_congr
        intro c hcm
        simp only [Function.comp]
        cases hat : Op.attaches (.named k) c.op with
        | false => rfl
        | true =>
          symm
          obtain ⟨s, sec, m, p, e, hne, hm, hk, h3⟩ := look c.op (List.mem_map.2 ⟨c, hcm, rfl⟩) hat
          have hmn : m = n := u32_nameOff_inj T.symstr hlt hm hn0 (hk.symm.trans hk0)
          subst hmn
          obtain ⟨a, b, el⟩ := List.append_of_mem hcm
          cases h.just a c b el with
          | «section» => cases e
          | @symbol x j s' n' sec' y hx hj hnm hs =>
            cases e
            have h0 : s.st_shndx ≠ 0 := by
              intro h0
              obtain ⟨n1, sh, d, hm1⟩ := (hs sec).1 rfl
              rw [h0] at hm1
              have hml : (⟨x.source, .section 0, .push n1 sh d sec⟩ : Call) ∈ log := by rw [el]; exact List.mem_append_left _ hm1
              obtain ⟨a1, b1, e1⟩ := List.append_of_mem hml
              have hj1 := h.just a1 _ b1 e1
              obtain ⟨src, hsrc⟩ : ∃ src, src = x.source := ⟨_, rfl⟩
              rw [← hsrc] at hj1
              generalize hc2 : (⟨src, .section 0, .push n1 sh d sec⟩ : Call) = c2 at hj1
              cases hj1 with
              | «section» hx' hi' ht' hn' hd' =>
                cases hc2
                have := hc.first _ _ (h.input hx') hi'
                rw [hn'] at this
                cases this
                exact hne (hh.unnamed_null (List.mem_map.2 ⟨_, hml, rfl⟩))
              | symbol => cases hc2
              | reloc => cases hc2
              | dynsym => cases hc2
              | needed => cases hc2
            simp [keyDefines, h.fileOf_eq hx, defines, hj, h3, h0, hnm, Item.isOther]
          | reloc => cases e
          | dynsym => cases e
          | needed => cases e
      rw [this]
      have : ∀ (L : List Call) (p q : Call → Bool), (L.filter fun c => p c && q c).Sublist (L.filter q) := by
        intro L p q
        rw [← List.filter_filter]
        exact List.filter_sublist
      exact this _ _ _
    · have : (opsOf log).filter (Op.attaches (.named k)) = [] := by
        rw [List.filter_eq_nil_iff]
        intro op hop ha
        exact hex ⟨op, hop, ha⟩
      rw [this]
      exact Nat.zero_le _

/-- objects of moderate size make calls of moderate size -/
theorem fits (h : Calls env l N (objectsOf env l) log) (hh : Hist opts (opsOf log) w) (hc : CleanFiles env l) (hn : NamesSmall env l) (hlib : l.options.sharedLibs = [])
    (S : SmallObjects env l V K) : Spec.Fits l.options (opsOf log) V K := by
  refine ⟨?_, ?_, h.attaches_le hh hc hn S.definitions, ?_⟩
  · intro s sec n path r hop
    obtain ⟨x, hx, hs, _⟩ := h.sym hop
    exact S.values x hx s hs
  · intro rel y sr path hop
    obtain ⟨c, hc, e⟩ := List.mem_map.1 hop
    obtain ⟨x, k, pos, j, rel', s, sh, n, R⟩ := h.relocCall hc e
    rw [R.rela]
    exact S.addends x R.file _ R.used
  · unfold reach
    rw [h.cost_eq hlib]
    exact S.small

end Calls
end Dld
