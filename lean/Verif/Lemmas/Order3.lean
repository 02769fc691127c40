import Verif.Lemmas.Order2
/-! # Two links of the same calls with different hash-map orders: the later stages -/
namespace Dld
open Writer

variable {full : Bool} {sched sched' : Sched} {opts : Options} {ops : List Op} {w : Writer}

theorem mapAccumM_rel {ε σ α β γ δ : Type} {f g : σ → α → Except ε (σ × β)} {R : σ → σ → Prop} {F : α → γ} {G : β → δ}
    (h : ∀ s t a b s' t' c d, R s t → F a = F b → f s a = .ok (s', c) → g t b = .ok (t', d) → R s' t' ∧ G c = G d) :
    ∀ (l m : List α) (s t s' t' : σ) (l' m' : List β), R s t → l.map F = m.map F → mapAccumM f s l = .ok (s', l') →
      mapAccumM g t m = .ok (t', m') → R s' t' ∧ l'.map G = m'.map G := by
  intro l
  induction l with
  | nil =>
    intro m s t s' t' l' m' hr hlm h1 h2
    cases m with
    | nil => cases h1; cases h2; exact ⟨hr, rfl⟩
    | cons => cases hlm
  | cons a l ih =>
    intro m s t s' t' l' m' hr hlm h1 h2
    cases m with
    | nil => cases hlm
    | cons b m =>
      simp only [List.map_cons, List.cons.injEq] at hlm
      obtain ⟨s1, c, s2, cs, e1, e2, e3⟩ := (mapAccumM_cons _ _ _ _ _).1 h1
      obtain ⟨t1, d, t2, ds, f1, f2, f3⟩ := (mapAccumM_cons _ _ _ _ _).1 h2
      simp only [Prod.mk.injEq] at e3 f3
      obtain ⟨r1, r2⟩ := h _ _ _ _ _ _ _ _ hr hlm.1 e1 f1
      obtain ⟨r3, r4⟩ := ih m s1 t1 s2 t2 cs ds r1 hlm.2 e2 f2
      rw [e3.1, f3.1, e3.2, f3.2]
      exact ⟨r3, by simp only [List.map_cons, r2, r4]⟩

/-! ### Special symbols -/

theorem blur_addSymbol (k : Bool) (r : SymbolRef) (c : Chunk) : Chunk.blur k (c.addSymbol r) = (Chunk.blur k c).addSymbol r := by
  unfold Chunk.addSymbol
  have : (Chunk.blur k c).symbols = c.symbols := rfl
  rw [this]
  by_cases h : r ∈ c.symbols
  · rw [if_pos h, if_pos h]
  · rw [if_neg h, if_neg h]; rfl

theorem addSymbol_alike {a b a' b' : Section} {i j : Nat} (hij : i = j) {r : SymbolRef} (h : a.blur full = b.blur full) (ha : a.modifyChunk i (·.addSymbol r) = .ok a')
    (hb : b.modifyChunk j (·.addSymbol r) = .ok b') : a'.blur full = b'.blur full := by
  subst hij
  obtain ⟨_, rfl⟩ := modifyChunk_ok ha
  obtain ⟨_, rfl⟩ := modifyChunk_ok hb
  obtain ⟨h1, h2, h3, h4, h5, h6⟩ := Section.blur_iff.1 h
  refine Section.blur_iff.2 ⟨h1, h2, h3, h4, h5, ?_⟩
  show (a.chunks.modify i _).map (Chunk.blur (a.keep full)) = (b.chunks.modify i _).map (Chunk.blur (a.keep full))
  have key : ∀ l : List Chunk, (l.modify i (·.addSymbol r)).map (Chunk.blur (a.keep full)) = (l.map (Chunk.blur (a.keep full))).modify i (·.addSymbol r) := by
    intro l
    apply List.ext_getElem?
    intro n
    simp only [List.getElem?_map, List.getElem?_modify]
    cases l[n]? with
    | none => rfl
    | some c =>
      simp only [Option.map_some]
      by_cases hn : i = n
      · simp only [hn, if_true]; exact congrArg some (blur_addSymbol _ _ _)
      · simp only [hn, if_false]; rfl
  rw [key, key, h6]

/-- the second half of `boundSymbols` -/
def boundStop (symstr : StringTable) (stop : Name) (t : SymbolTable) (s : Section) : M (SymbolTable × Section) :=
  match symstr.get stop with
  | some e => do
    let r := SymbolRef.named (u32 e.offset)
    let _ ← unwrap (t.get r)
    let t := t.modify r fun x => { x with sym := { x.sym with st_value := s.sizeOnDisk } }
    let s ← if s.chunks.length = 0 then .error .panic
      else s.modifyChunk (s.chunks.length - 1) (·.addSymbol r)
    .ok (t, s)
  | none => .ok (t, s)

theorem boundSymbols_alike {y : StringTable} {m n : Name} {t u t' u' : SymbolTable} {a b a' b' : Section} (ht : t.strip = u.strip)
    (h : a.blur full = b.blur full) (ha : boundSymbols y m n t a = .ok (t', a')) (hb : boundSymbols y m n u b = .ok (u', b')) :
    t'.strip = u'.strip ∧ a'.blur full = b'.blur full := by
  have tail : ∀ {a b : Section}, a.blur full = b.blur full → boundStop y n t a = .ok (t', a') → boundStop y n u b = .ok (u', b') →
      t'.strip = u'.strip ∧ a'.blur full = b'.blur full := by
    intro a1 b1 h1 ha hb
    unfold boundStop at ha hb
    cases hn : y.get n with
    | none =>
      rw [hn] at ha hb
      simp only [Except.ok.injEq, Prod.mk.injEq] at ha hb
      rw [← ha.1, ← ha.2, ← hb.1, ← hb.2]; exact ⟨ht, h1⟩
    | some e =>
      rw [hn] at ha hb
      have hsz : a1.sizeOnDisk = b1.sizeOnDisk := by
        unfold Section.sizeOnDisk; rw [(Section.blur_iff.1 h1).2.2.2.2.1]
      have hl := Section.blur_chunks h1
      by_cases h0 : a1.chunks.length = 0
      · simp only [bind_ok, unwrap_ok, if_pos h0] at ha
        obtain ⟨_, _, _, ha, _⟩ := ha
        cases ha
      · have h0' : ¬ b1.chunks.length = 0 := by rw [← hl]; exact h0
        simp only [bind_ok, unwrap_ok, if_neg h0, if_neg h0'] at ha hb
        obtain ⟨_, _, a2, e2, ha⟩ := ha
        obtain ⟨_, _, b2, f2, hb⟩ := hb
        simp only [Except.ok.injEq, Prod.mk.injEq] at ha hb
        rw [← ha.1, ← ha.2, ← hb.1, ← hb.2]
        refine ⟨?_, addSymbol_alike (by rw [hl]) h1 e2 f2⟩
        have k1 := SymbolTable.strip_modify (f := fun x => { x with sym := { x.sym with st_value := a1.sizeOnDisk } }) (fun _ => rfl) t (.named (u32 e.offset))
        have k2 := SymbolTable.strip_modify (f := fun x => { x with sym := { x.sym with st_value := b1.sizeOnDisk } }) (fun _ => rfl) u (.named (u32 e.offset))
        rw [k1, k2, ht, hsz]
  cases hm : y.get m with
  | none =>
    simp only [boundSymbols, hm] at ha hb
    exact tail h ha hb
  | some e =>
    simp only [boundSymbols, hm, bind_ok] at ha hb
    obtain ⟨a1, e1, ha⟩ := ha
    obtain ⟨b1, f1, hb⟩ := hb
    exact tail (addSymbol_alike rfl h e1 f1) ha hb

theorem special_alike {a b a' b' : Writer} (h : Alike full a b) (ha : a.handleSpecialSymbols = .ok a') (hb : b.handleSpecialSymbols = .ok b') :
    Alike full a' b' := by
  simp only [handleSpecialSymbols, bind_ok, Prod.exists] at ha hb
  obtain ⟨g, hg, y, hy, z, hz, t, l, hm, c, hc, ha⟩ := ha
  obtain ⟨g', hg', y', hy', z', hz', t', l', hm', c', hc', hb⟩ := hb
  have kg := (Section.blur_iff.1 (h.sec hg hg'))
  have ky := (Section.blur_iff.1 (h.sec hy hy')).2.2.2.2.1
  have kz := (Section.blur_iff.1 (h.sec hz hz')).2.2.2.2.1
  have hr := mapAccumM_rel (R := fun (t u : SymbolTable) => t.strip = u.strip) (F := Section.blur full) (G := Section.blur full) (fun t u s s' t' u' c d ht hs e f => by
      have hn : s.sh = s'.sh := (congrArg Section.sh hs :)
      rw [← h.shstr, ← h.symstr, ← ky, ← kz] at f
      unfold specialStep at e f
      rw [← hn] at f
      by_cases c1 : s.sh.sh_name ∈ [y.sh.sh_name, z.sh.sh_name]
      · rw [if_pos c1] at e f
        simp only [Except.ok.injEq, Prod.mk.injEq] at e f
        rw [← e.1, ← e.2, ← f.1, ← f.2]; exact ⟨ht, hs⟩
      · rw [if_neg c1] at e f
        by_cases c2 : a.shstr.shName b!".init_array" = some s.sh.sh_name
        · rw [if_pos c2] at e f; exact boundSymbols_alike ht hs e f
        · rw [if_neg c2] at e f
          by_cases c3 : a.shstr.shName b!".fini_array" = some s.sh.sh_name
          · rw [if_pos c3] at e f; exact boundSymbols_alike ht hs e f
          · rw [if_neg c3] at e f
            simp only [Except.ok.injEq, Prod.mk.injEq] at e f
            rw [← e.1, ← e.2, ← f.1, ← f.2]; exact ⟨ht, hs⟩)
      _ _ _ _ _ _ _ _ (by
        rw [← h.symstr]
        cases a.symstr.get b!"_GLOBAL_OFFSET_TABLE_" with
        | none => exact h.symtab
        | some e =>
          simp only
          have k1 := SymbolTable.strip_modify (f := fun s => { s with sym := { s.sym with st_shndx := u16 g.index, st_value := g.sh.sh_addr } }) (fun _ => rfl) a.symtab (.named (u32 e.offset))
          have k2 := SymbolTable.strip_modify (f := fun s => { s with sym := { s.sym with st_shndx := u16 g'.index, st_value := g'.sh.sh_addr } }) (fun _ => rfl) b.symtab (.named (u32 e.offset))
          rw [k1, k2, h.symtab, kg.2.1, kg.2.2.2.2.1]) h.sections hm hm'
  have hcc : c.blur full = c'.blur full := by
    simp only [Writer.sec, unwrap_ok] at hc hc'
    exact find_alike hr.2 hc hc'
  obtain ⟨_, c2, _, _, c5, _⟩ := Section.blur_iff.1 hcc
  rw [← Except.ok.inj ha, ← Except.ok.inj hb]
  refine ⟨hr.2, h.eh, h.gotLen, h.gotPlt, h.dynEntries, h.programHeaders, h.pVaddr, h.startPVaddr, h.fileOffset, h.shstr, h.symstr, h.dynstr, h.plt,
    hr.1, ?_, h.dynLocals, fun hf => ?_, h.dynRels, h.pltRels, h.copySize⟩
  · simp only [SymbolTable.updateObjectSymbols, List.length_map, h.dynLen]
  · show a.dynsym.updateObjectSymbols _ _ = b.dynsym.updateObjectSymbols _ _
    rw [h.dynsym hf, c2, c5]

/-! ### Relocations -/

theorem strip_foldl_modify {f : SymbolRef → Symbol → Symbol} (hf : ∀ r s, unrel (f r s) = f r (unrel s)) (l : List SymbolRef) :
    ∀ t u : SymbolTable, t.strip = u.strip → (l.foldl (fun t r => t.modify r (f r)) t).strip = (l.foldl (fun t r => t.modify r (f r)) u).strip := by
  induction l with
  | nil => intro t u h; exact h
  | cons r l ih =>
    intro t u h
    simp only [List.foldl_cons]
    exact ih _ _ (by rw [SymbolTable.strip_modify (hf r), SymbolTable.strip_modify (hf r), h])

theorem patchChunks_alike (k : Bool) (i : Nat) : ∀ (l m : List Chunk) (base : Nat) (t u : SymbolTable), l.map (Chunk.blur k) = m.map (Chunk.blur k) →
    t.strip = u.strip → (Section.patchChunks i base t l).strip = (Section.patchChunks i base u m).strip := by
  intro l
  induction l with
  | nil => intro m base t u h ht; cases m with
    | nil => exact ht
    | cons => cases h
  | cons a l ih => intro m base t u h ht; cases m with
    | nil => cases h
    | cons b m =>
      simp only [List.map_cons, List.cons.injEq] at h
      have e1 : a.data.length = b.data.length := by rw [← Chunk.blur_length k a, ← Chunk.blur_length k b, h.1]
      have e2 : a.symbols = b.symbols := (congrArg Chunk.symbols h.1 :)
      simp only [Section.patchChunks]
      rw [e1, e2]
      refine ih m _ _ _ h.2 ?_
      unfold Section.patchSymbols
      exact strip_foldl_modify (f := fun r s => { s with sym := { s.sym with st_shndx := i, st_value := match r with | .section _ _ => base | .named _ => s.sym.st_value + base } }) (fun r s => by cases r <;> rfl) _ t u ht

theorem patchSymbolValues_alike {s t : Section} (h : s.blur full = t.blur full) {x y : SymbolTable} (hx : x.strip = y.strip) :
    (s.patchSymbolValues x).strip = (t.patchSymbolValues y).strip := by
  obtain ⟨h1, h2, h3, h4, h5, h6⟩ := Section.blur_iff.1 h
  unfold Section.patchSymbolValues
  rw [h2, h5]
  exact patchChunks_alike _ _ _ _ _ _ _ h6 hx

theorem applyRelocations_alike {c d c' d' : Chunk} {k : Bool} {g p : Nat} {t u x y : SymbolTable} (h : Chunk.blur k c = Chunk.blur k d) (ht : t.strip = u.strip)
    (hx : k = true → x = y) (hc : c.applyRelocations g p t x = .ok c') (hd : d.applyRelocations g p u y = .ok d') : Chunk.blur k c' = Chunk.blur k d' := by
  have e1 := (congrArg Chunk.address h :)
  have e2 := (congrArg Chunk.symbols h :)
  have e3 := (congrArg Chunk.relocations h :)
  simp only [Chunk.blur] at e1 e2 e3
  obtain ⟨i1, i2⟩ := applyRelocations_ok hc
  obtain ⟨j1, j2⟩ := applyRelocations_ok hd
  have el : c.data.length = d.data.length := by rw [← Chunk.blur_length k c, ← Chunk.blur_length k d, h]
  have hdata : (if k then c'.data else List.replicate c'.data.length 0) = (if k then d'.data else List.replicate d'.data.length 0) := by
    cases k with
    | false => simp only [Bool.false_eq_true, if_false, i2, j2, el]
    | true =>
      have hcd : c = d := by
        obtain ⟨cd, cs, ca, cr⟩ := c
        obtain ⟨dd, ds, da, dr⟩ := d
        simpa [Chunk.blur] using h
      subst hcd
      have hxy := hx rfl
      subst hxy
      simp only [if_true]
      simp only [Chunk.applyRelocations, bind_ok] at hc hd
      obtain ⟨b, hb, hc⟩ := hc
      obtain ⟨b', hb', hd⟩ := hd
      have hf : (fun data (e : Rela × SymbolRef) => do
            let addr ← unwrap c.address
            let symbol ← unwrap (t.get e.2)
            applyRelocation addr data e.1 symbol x g p) =
          (fun data (e : Rela × SymbolRef) => do
            let addr ← unwrap c.address
            let symbol ← unwrap (u.get e.2)
            applyRelocation addr data e.1 symbol x g p) := by
        funext data e
        have hg := SymbolTable.view_get (SymbolTable.view_of_strip ht) e.2
        congr 1
        funext addr
        cases h1 : t.get e.2 <;> cases h2 : u.get e.2 <;> rw [h1, h2] at hg <;> simp only [Option.map_none, Option.map_some, Option.some.injEq, reduceCtorEq] at hg
        next s s' =>
          have ha : ∀ s : Symbol, applyRelocation addr data e.1 s x g p = applyRelocation addr data e.1 (unrel s) x g p := fun _ => rfl
          show applyRelocation addr data e.1 s x g p = applyRelocation addr data e.1 s' x g p
          rw [ha s, ha s', hg]
      rw [hf, hb'] at hb
      rw [← Except.ok.inj hc, ← Except.ok.inj hd]
      exact (Except.ok.inj hb).symm
  rw [i1, j1]
  unfold Chunk.blur
  simp only
  rw [hdata, e1, e2, e3]

theorem reloc_alike {a b a' b' : Writer} (h : Alike full a b) (ha : a.handleRelocations = .ok a') (hb : b.handleRelocations = .ok b') :
    Alike full a' b' := by
  obtain ⟨g, p, y, d, r, hg, hp, hy, hd, ht, hm, e⟩ := handleRelocations_ok ha
  obtain ⟨g', p', y', d', r', hg', hp', hy', hd', ht', hm', e'⟩ := handleRelocations_ok hb
  have kg := (Section.blur_iff.1 (h.sec hg hg')).2.2.2.2.1
  have kp := (Section.blur_iff.1 (h.sec hp hp')).2.2.2.2.1
  have ky := (Section.blur_iff.1 (h.sec hy hy')).2.2.2.2.1
  have kd := (Section.blur_iff.1 (h.sec hd hd')).2.2.2.2.1
  rw [← ky, ← kd] at ht' hm'
  rw [← kg, ← kp] at hm'
  have hdrop : (a.sections.drop 1).map (Section.blur full) = (b.sections.drop 1).map (Section.blur full) := by
    rw [List.map_drop, List.map_drop, h.sections]
  have hsym : a'.symtab.strip = b'.symtab.strip := by
    rw [ht, ht']
    have hfil : ((a.sections.drop 1).filter (relocatable [y.sh.sh_name, d.sh.sh_name])).map (Section.blur full) =
        ((b.sections.drop 1).filter (relocatable [y.sh.sh_name, d.sh.sh_name])).map (Section.blur full) := by
      have key : ∀ l : List Section, (l.filter (relocatable [y.sh.sh_name, d.sh.sh_name])).map (Section.blur full) =
          (l.map (Section.blur full)).filter (relocatable [y.sh.sh_name, d.sh.sh_name]) := by
        intro l; rw [List.filter_map]; rfl
      rw [key, key, hdrop]
    generalize (a.sections.drop 1).filter (relocatable [y.sh.sh_name, d.sh.sh_name]) = l at hfil
    generalize (b.sections.drop 1).filter (relocatable [y.sh.sh_name, d.sh.sh_name]) = m at hfil
    have hs := h.symtab
    revert hs
    generalize a.symtab = x
    generalize b.symtab = z
    intro hs
    clear ht ht'
    induction l generalizing m x z with
    | nil => cases m with
      | nil => exact hs
      | cons => cases hfil
    | cons s l ih => cases m with
      | nil => cases hfil
      | cons s' m =>
        simp only [List.map_cons, List.cons.injEq] at hfil
        simp only [List.foldl_cons]
        exact ih m hfil.2 _ _ (patchSymbolValues_alike hfil.1 hs)
  have hrest := (mapAccumM_rel (R := fun _ _ => True) (F := Section.blur full) (G := Section.blur full) (fun _ _ s s' _ _ c c' _ hs e f => by
      rw [bind_ok] at e f
      obtain ⟨v, e, e2⟩ := e
      obtain ⟨v', f, f2⟩ := f
      simp only [Except.ok.injEq, Prod.mk.injEq] at e2 f2
      rw [← e2.2, ← f2.2]
      refine ⟨trivial, ?_⟩
      obtain ⟨h1, h2, h3, h4, h5, h6⟩ := Section.blur_iff.1 hs
      have hrel : relocatable [y.sh.sh_name, d.sh.sh_name] s' = relocatable [y.sh.sh_name, d.sh.sh_name] s := by unfold relocatable; rw [h5]
      unfold relocSection at e f
      rw [hrel] at f
      cases hq : relocatable [y.sh.sh_name, d.sh.sh_name] s
      · rw [hq] at e f
        cases e; cases f; exact hs
      · rw [hq] at e f
        simp only [if_true, bind_ok, Prod.exists] at e f
        obtain ⟨_, cs, e3, e4⟩ := e
        obtain ⟨_, ds, f3, f4⟩ := f
        rw [← Except.ok.inj e4, ← Except.ok.inj f4]
        refine Section.blur_iff.2 ⟨h1, h2, h3, h4, h5, ?_⟩
        exact (mapAccumM_rel (R := fun _ _ => True) (F := Chunk.blur (s.keep full)) (G := Chunk.blur (s.keep full)) (fun _ _ c c' _ _ x x' _ hc e f => by
          rw [bind_ok] at e f
          obtain ⟨v, e, e2⟩ := e
          obtain ⟨v', f, f2⟩ := f
          simp only [Except.ok.injEq, Prod.mk.injEq] at e2 f2
          rw [← e2.2, ← f2.2]
          exact ⟨trivial, applyRelocations_alike hc hsym (fun hk => h.dynsym (by simp only [Section.keep, Bool.and_eq_true] at hk; exact hk.1)) e f⟩)
          _ _ _ _ _ _ _ _ trivial h6 e3 f3).2) _ _ _ _ _ _ _ _ trivial hdrop hm hm').2
  rw [e, e']
  refine ⟨?_, h.eh, h.gotLen, h.gotPlt, h.dynEntries, h.programHeaders, h.pVaddr, h.startPVaddr, h.fileOffset, h.shstr, h.symstr, h.dynstr, h.plt,
    hsym, h.dynLen, h.dynLocals, h.dynsym, h.dynRels, h.pltRels, h.copySize⟩
  show (a.sections.take 1 ++ r).map _ = (b.sections.take 1 ++ r').map _
  rw [List.map_append, List.map_append, hrest, List.map_take, List.map_take, h.sections]

/-! ### The tables and the header -/

theorem tables_alike {a b a' b' : Writer} (h : Alike full a b) (ha : a.computeTables = .ok a') (hb : b.computeTables = .ok b') :
    Alike full a' b' := by
  obtain ⟨⟨g, gp, cr, hg, hgp, hcr, d1, p1⟩, s1, w1⟩ := computeTables_ok ha
  obtain ⟨⟨g', gp', cr', hg', hgp', hcr', d2, p2⟩, s2, w2⟩ := computeTables_ok hb
  have hdl : a'.dynRels.length = b'.dynRels.length := by rw [d1, d2]; simp only [List.length_map, h.dynRels]
  have hpl : a'.pltRels.length = b'.pltRels.length := by rw [p1, p2]; simp only [List.length_map, h.pltRels]
  rw [w1, w2]
  refine ⟨?_, h.eh, h.gotLen, h.gotPlt, h.dynEntries, h.programHeaders, h.pVaddr, h.startPVaddr, h.fileOffset, h.shstr, h.symstr, h.dynstr, h.plt,
    h.symtab, h.dynLen, h.dynLocals, h.dynsym, hdl, hpl, h.copySize⟩
  show a'.sections.map _ = b'.sections.map _
  rw [s1, s2]
  refine map_alike h.sections fun s t hst => ?_
  have hp : s.ptr = t.ptr := (congrArg Section.ptr hst :)
  rw [← hp]
  have one : ∀ d e : Bytes, d.length = e.length → (s.keep full = true → d = e) → (addChunks [d] s).blur full = (addChunks [e] t).blur full :=
    fun d e h1 h2 => Section.blur_addChunk hst h1 h2
  unfold tableData
  rw [← h.shstr, ← h.symstr, ← h.dynstr, ← h.dynEntries]
  by_cases c1 : s.ptr = P.shstr
  · rw [if_pos c1, if_pos c1]; exact one _ _ rfl fun _ => rfl
  rw [if_neg c1, if_neg c1]
  by_cases c2 : s.ptr = P.symstr
  · rw [if_pos c2, if_pos c2]; exact one _ _ rfl fun _ => rfl
  rw [if_neg c2, if_neg c2]
  by_cases c3 : s.ptr = P.dynstr
  · rw [if_pos c3, if_pos c3]; exact one _ _ rfl fun _ => rfl
  rw [if_neg c3, if_neg c3]
  by_cases c4 : s.ptr = P.dynamic
  · rw [if_pos c4, if_pos c4]; exact one _ _ rfl fun _ => rfl
  rw [if_neg c4, if_neg c4]
  by_cases c5 : s.ptr = P.relaDyn
  · rw [if_pos c5, if_pos c5]
    exact one _ _ (by unfold serVec; rw [length_flatMap_const length_serRela, length_flatMap_const length_serRela, hdl])
      fun hk => by simp [Section.keep, Section.loose, c5] at hk
  rw [if_neg c5, if_neg c5]
  by_cases c6 : s.ptr = P.relaPlt
  · rw [if_pos c6, if_pos c6]
    exact one _ _ (by unfold serVec; rw [length_flatMap_const length_serRela, length_flatMap_const length_serRela, hpl])
      fun hk => by simp [Section.keep, Section.loose, c6] at hk
  rw [if_neg c6, if_neg c6]
  show ({ s with chunks := s.chunks ++ [] } : Section).blur full = ({ t with chunks := t.chunks ++ [] } : Section).blur full
  rw [List.append_nil, List.append_nil]; exact hst

theorem finish_alike {a b a' b' : Writer} (h : Alike full a b) (ha : a.finishHeader = .ok a') (hb : b.finishHeader = .ok b') :
    Alike full a' b' := by
  obtain ⟨en, s, ph, phs, hs, hph, e1, e2, _, rfl⟩ := finishHeader_ok ha
  obtain ⟨en', s', ph', phs', hs', hph', f1, f2, _, rfl⟩ := finishHeader_ok hb
  obtain ⟨_, k2, _⟩ := Section.blur_iff.1 (h.sec hs hs')
  have hphs := h.programHeaders
  rw [hph, hph'] at hphs
  simp only [List.cons.injEq] at hphs
  have hen : en = en' := by
    rw [← h.symstr] at f1 f2
    cases hst : a.symstr.get b!"_start" with
    | none => rw [e2 hst, f2 hst, h.eh]
    | some e =>
      obtain ⟨y, y1, y2⟩ := e1 e hst
      obtain ⟨z, z1, z2⟩ := f1 e hst
      have := SymbolTable.view_get (SymbolTable.view_of_strip h.symtab) (.named (u32 e.offset))
      rw [y1, z1] at this
      simp only [Option.map_some, Option.some.injEq] at this
      rw [y2, z2]
      exact (congrArg (fun s : Symbol => s.sym.st_value) this :)
  have hlen : a.sections.length = b.sections.length := by simpa using congrArg List.length h.sections
  refine ⟨h.sections, ?_, h.gotLen, h.gotPlt, h.dynEntries, ?_, h.pVaddr, h.startPVaddr, h.fileOffset, h.shstr, h.symstr, h.dynstr, h.plt,
    h.symtab, h.dynLen, h.dynLocals, h.dynsym, h.dynRels, h.pltRels, h.copySize⟩
  · simp only [h.eh, hen, hlen, h.programHeaders, k2, h.fileOffset]
  · simp only [hphs.1, hphs.2, h.eh, h.programHeaders, h.startPVaddr]

end Dld
