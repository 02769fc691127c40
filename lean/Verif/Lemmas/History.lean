import Verif.Spec.History
import Verif.Lemmas.Except
import Verif.Lemmas.StringTable
/-! # Invariants of the writer's interface -/
namespace Dld
open StringTable

theorem Op.run_step {w w' : Writer} {op : Op} (h : op.run w = .ok w') : Step w op w' := by
  cases op with
  | push name sh data r =>
    simp only [Op.run, bind_ok, Prod.exists] at h
    obtain ⟨w1, r1, h1, h2⟩ := h
    split at h2
    · next hr => cases h2; subst hr; exact .push h1
    · cases h2
  | sym s sec name path r =>
    simp only [Op.run, bind_ok, Prod.exists] at h
    obtain ⟨w1, r1, h1, h2⟩ := h
    split at h2
    · next hr => cases h2; subst hr; exact .sym h1
    · cases h2
  | dynsym s name path r =>
    simp only [Op.run, bind_ok, Prod.exists] at h
    obtain ⟨w1, r1, h1, h2⟩ := h
    split at h2
    · next hr => cases h2; subst hr; exact .dynsym h1
    · cases h2
  | reloc rel r sr path => exact .reloc h
  | needed name => cases h; exact .needed

theorem Hist.append {opts : Options} {ops : List Op} {w w' : Writer} (h : Hist opts ops w)
    {ops' : List Op} (h' : foldM' Op.run w ops' = .ok w') : Hist opts (ops ++ ops') w' := by
  induction ops' generalizing ops w with
  | nil => cases h'; simpa using h
  | cons op ops' ih =>
    rw [foldM'_cons, bind_ok] at h'
    obtain ⟨w1, h1, h2⟩ := h'
    have := ih (h.step (Op.run_step h1)) h2
    simpa using this

/-- every successful run is a history -/
theorem Hist.of_run {opts : Options} {ops : List Op} {w : Writer} (h : runOps opts ops = .ok w) :
    Hist opts ops w := by
  simp only [runOps, bind_ok] at h
  obtain ⟨w0, h0, h1⟩ := h
  simpa using (Hist.init h0).append h1

theorem pushesOf_append (n : Name) (a b : List Op) :
    pushesOf n (a ++ b) = pushesOf n a ++ pushesOf n b := by
  induction a with
  | nil => rfl
  | cons op a ih =>
    cases op <;> simp only [List.cons_append, pushesOf, ih]
    split <;> simp

/-! ### The writer `Writer::new` makes -/

/-- the names in the section name table of a new writer, in order -/
def tabNames (h : HashStyle) : List Name :=
  [[], b!".shstrtab", b!".strtab", b!".dynstr", b!".interp", b!".got", b!".got.plt", b!".plt",
   b!".symtab", b!".dynsym", b!".dynamic", b!".rela.dyn", b!".rela.plt"]
  ++ (if Writer.wantsHash h then [b!".hash"] else [])
  ++ (if Writer.wantsGnuHash h then [b!".gnu.hash"] else []) ++ [b!".copyrel"]

/-- the names of the sections of a new writer, in the order of the sections -/
def baseNames (h : HashStyle) : List Name :=
  [[], b!".shstrtab", b!".strtab", b!".dynstr", b!".interp", b!".got", b!".got.plt", b!".plt",
   b!".symtab", b!".dynsym", b!".dynamic", b!".rela.dyn", b!".rela.plt", b!".copyrel"]
  ++ (if Writer.wantsHash h then [b!".hash"] else [])
  ++ (if Writer.wantsGnuHash h then [b!".gnu.hash"] else [])

/-- the offset of a name in the table -/
def nameOff (ns : List Name) (n : Name) : Nat := total (ns.take (ns.idxOf n))

theorem new_shstr (opts : Options) (w : Writer) (h : Writer.new opts = .ok w) :
    Holds w.shstr (tabNames opts.hashStyle) ∧
    w.sections.map (·.sh.sh_name) = (baseNames opts.hashStyle).map (fun n => u32 (nameOff (tabNames opts.hashStyle) n)) := by
  simp only [Writer.new, bind_ok] at h
  obtain ⟨f, hf, h⟩ := h
  cases h
  dsimp only
  simp only [List.map_append, List.map_cons, List.map_nil, apply_ite (List.map (fun s : Section => s.sh.sh_name))]
  generalize opts.hashStyle = hs
  cases hs
  all_goals
    refine ⟨⟨by decide +kernel, by decide +kernel, by decide +kernel, by decide +kernel⟩, ?_⟩
    decide +kernel

/-- identity, link, kind, type, flags, entry size and alignment of a section -/
def Section.ident (s : Section) : Nat × Option Nat × Kind × Nat × Nat × Nat × Nat :=
  (s.ptr, s.link, s.kind, s.sh.sh_type, s.sh.sh_flags, s.sh.sh_entsize, s.sh.sh_addralign)

/-- the sections of a new writer -/
def baseIdents (h : HashStyle) : List (Nat × Option Nat × Kind × Nat × Nat × Nat × Nat) :=
  [ (P.null, none, .plain, 0, 0, 0, 0),
    (P.shstr, none, .shstr, SHT_STRTAB, 0, 0, 1),
    (P.symstr, none, .symstr, SHT_STRTAB, 0, 0, 1),
    (P.dynstr, none, .dynstr, SHT_STRTAB, 2, 0, 1),
    (P.interp, none, .plain, SHT_PROGBITS, 2, 0, 1),
    (P.got, none, .plain, SHT_PROGBITS, 3, 0, 8),
    (P.gotPlt, none, .plain, SHT_PROGBITS, 3, 0, 8),
    (P.plt, none, .plt, SHT_PROGBITS, 6, 0, 8),
    (P.sym, some P.symstr, .symtab, SHT_SYMTAB, 0, 24, 8),
    (P.dynsym, some P.dynstr, .dynsym, SHT_DYNSYM, 2, 24, 8),
    (P.dynamic, some P.dynstr, .plain, SHT_DYNAMIC, 3, 16, 8),
    (P.relaDyn, some P.dynsym, .plain, SHT_RELA, 2, 24, 8),
    (P.relaPlt, some P.dynsym, .plain, SHT_RELA, 2, 24, 8),
    (P.copyRel, none, .copyRel, SHT_NOBITS, 3, 0, 64) ]
  ++ (if Writer.wantsHash h then [(P.hash, some P.dynsym, .hash, SHT_HASH, 2, 4, 4)] else [])
  ++ (if Writer.wantsGnuHash h then [(P.gnuHash, some P.dynsym, .gnuHash, SHT_GNU_HASH, 2, 4, 4)] else [])

/-- address, offset, index and the remaining fields are zero in a new section -/
def Section.fresh (s : Section) : Prop :=
  s.index = 0 ∧ s.sh.sh_addr = 0 ∧ s.sh.sh_offset = 0 ∧ s.sh.sh_link = 0 ∧ s.sh.sh_info = 0

theorem new_idents (opts : Options) (w : Writer) (h : Writer.new opts = .ok w) :
    w.sections.map Section.ident = baseIdents opts.hashStyle ∧ (∀ s ∈ w.sections, s.fresh) ∧
    w.sections.map (fun s => (s.sh.sh_size, s.chunks)) =
      ((baseIdents opts.hashStyle).map fun i =>
        if i.1 = P.interp then (opts.dynamicLinker.full.length + 1, [{ data := opts.dynamicLinker.full ++ [0] }])
        else (0, [])) := by
  simp only [Writer.new, bind_ok] at h
  obtain ⟨f, hf, h⟩ := h
  cases h
  refine ⟨?_, ?_, ?_⟩
  · dsimp only
    simp only [List.map_append, List.map_cons, List.map_nil, apply_ite (List.map Section.ident), Section.ident]
    generalize opts.hashStyle = hs
    cases hs <;> rfl
  · dsimp only
    generalize opts.hashStyle = hs
    intro s hs
    simp only [List.mem_append, List.mem_cons, List.not_mem_nil, or_false] at hs
    rcases hs with (hs | hs) | hs
    · rcases hs with h | h | h | h | h | h | h | h | h | h | h | h | h | h <;> subst h <;> exact ⟨rfl, rfl, rfl, rfl, rfl⟩
    · split at hs
      · simp only [List.mem_singleton] at hs; subst hs; exact ⟨rfl, rfl, rfl, rfl, rfl⟩
      · cases hs
    · split at hs
      · simp only [List.mem_singleton] at hs; subst hs; exact ⟨rfl, rfl, rfl, rfl, rfl⟩
      · cases hs
  · dsimp only
    generalize opts.hashStyle = hs
    cases hs <;> simp [Writer.wantsHash, Writer.wantsGnuHash, baseIdents, P.interp, P.null, P.shstr, P.symstr,
      P.dynstr, P.got, P.gotPlt, P.plt, P.sym, P.dynsym, P.dynamic, P.relaDyn, P.relaPlt, P.copyRel, P.hash, P.gnuHash]

/-! ### What pushing sections builds -/

/-- `s` is the section `b` after absorbing the pushes `ps` -/
structure Merged (b s : Section) (ps : List (SectionHeader × Option Bytes)) : Prop where
  ptr : s.ptr = b.ptr
  index : s.index = b.index
  link : s.link = b.link
  kind : s.kind = b.kind
  sh : s.sh = { b.sh with
    sh_size := b.sh.sh_size + (ps.map (·.1.sh_size)).sum
    sh_addralign := ps.foldl (fun a p => max a p.1.sh_addralign) b.sh.sh_addralign }
  data : s.chunks.map (·.data) = b.chunks.map (·.data) ++ ps.filterMap (·.2)

/-- the section made by the first push of a name -/
def firstSection (ptr off : Nat) (p : SectionHeader × Option Bytes) : Section :=
  { ptr, sh := { p.1 with sh_name := u32 off, sh_addr := 0, sh_offset := 0 }
    chunks := [{ data := p.2.getD [] }] }

/-- the sections of a writer after the calls `ops`, `w0` being the new writer, `pn` the new names -/
structure WInv (opts : Options) (w0 : Writer) (ops : List Op) (w : Writer) (pn : List Name) : Prop where
  names : Holds w.shstr (tabNames opts.hashStyle ++ pn)
  len : w.sections.length = (tabNames opts.hashStyle ++ pn).length
  base : ∀ (i : Nat) (s : Section), i < (tabNames opts.hashStyle).length → w.sections[i]? = some s → ∃ b n,
    w0.sections[i]? = some b ∧ (tabNames opts.hashStyle)[i]? = some n ∧ Merged b s (pushesOf n ops)
  pushed : ∀ (i : Nat) (s : Section), w.sections[(tabNames opts.hashStyle).length + i]? = some s → ∃ n p ps,
    pn[i]? = some n ∧ pushesOf n ops = p :: ps ∧
    Merged (firstSection (P.first + i) (nameOff (tabNames opts.hashStyle ++ pn) n) p) s ps
  next : w.nextPtr = P.first + pn.length
  fresh : ∀ n, n ∉ tabNames opts.hashStyle ++ pn → pushesOf n ops = []

theorem base_length (h : HashStyle) : (baseNames h).length = (tabNames h).length ∧
    (baseIdents h).length = (tabNames h).length := by cases h <;> decide

theorem WInv.init {opts : Options} {w0 : Writer} (h : Writer.new opts = .ok w0) : WInv opts w0 [] w0 [] := by
  have hn := new_shstr opts w0 h
  have hlen : w0.sections.length = (tabNames opts.hashStyle).length := by
    have := congrArg List.length hn.2
    simpa [(base_length opts.hashStyle).1] using this
  refine ⟨by simpa using hn.1, by simpa using hlen, ?_, ?_, ?_, by simp [pushesOf]⟩
  · intro i s hi hs
    refine ⟨s, (tabNames opts.hashStyle)[i], hs, by simp [hi], ⟨rfl, rfl, rfl, rfl, ?_, ?_⟩⟩
    · simp [pushesOf]
    · simp [pushesOf]
  · intro i s hs
    rw [List.getElem?_eq_none (by omega)] at hs; cases hs
  · simp only [Writer.new, bind_ok] at h
    obtain ⟨f, hf, h⟩ := h
    cases h; rfl

/-- a call that leaves the section table alone, up to symbols and relocations of chunks -/
theorem WInv.frame {opts : Options} {w0 w w' : Writer} {ops : List Op} {op : Op} {pn : List Name}
    (hI : WInv opts w0 ops w pn) (hop : ∀ n, pushesOf n [op] = [])
    (hshstr : w'.shstr = w.shstr) (hnext : w'.nextPtr = w.nextPtr)
    (hlen : w'.sections.length = w.sections.length)
    (hsec : ∀ (i : Nat) (s' : Section), w'.sections[i]? = some s' → ∃ s, w.sections[i]? = some s ∧ s'.ptr = s.ptr ∧
      s'.index = s.index ∧ s'.link = s.link ∧ s'.kind = s.kind ∧ s'.sh = s.sh ∧
      s'.chunks.map (·.data) = s.chunks.map (·.data)) : WInv opts w0 (ops ++ [op]) w' pn := by
  have hp : ∀ n, pushesOf n (ops ++ [op]) = pushesOf n ops := fun n => by rw [pushesOf_append, hop]; simp
  refine ⟨hshstr ▸ hI.names, hlen ▸ hI.len, ?_, ?_, hnext ▸ hI.next, ?_⟩
  · intro i s' hi hs'
    obtain ⟨s, hs, e1, e2, e3, e4, e5, e6⟩ := hsec i s' hs'
    obtain ⟨b, n, hb, hn, hm⟩ := hI.base i s hi hs
    refine ⟨b, n, hb, hn, ?_⟩
    rw [hp]
    exact ⟨e1.trans hm.ptr, e2.trans hm.index, e3.trans hm.link, e4.trans hm.kind, e5.trans hm.sh, e6.trans hm.data⟩
  · intro i s' hs'
    obtain ⟨s, hs, e1, e2, e3, e4, e5, e6⟩ := hsec _ s' hs'
    obtain ⟨n, p, ps, hn, hps, hm⟩ := hI.pushed i s hs
    refine ⟨n, p, ps, hn, by rw [hp]; exact hps, ?_⟩
    exact ⟨e1.trans hm.ptr, e2.trans hm.index, e3.trans hm.link, e4.trans hm.kind, e5.trans hm.sh, e6.trans hm.data⟩
  · intro n hn; rw [hp]; exact hI.fresh n hn

/-- what `modChunk` does to the list of sections -/
theorem modChunk_frame {w w' : Writer} {r : SectionRef} {f : Chunk → Chunk}
    (hf : ∀ c, (f c).data = c.data) (h : w.modChunk r f = .ok w') :
    w'.shstr = w.shstr ∧ w'.nextPtr = w.nextPtr ∧ w'.sections.length = w.sections.length ∧
    ∀ (i : Nat) (s' : Section), w'.sections[i]? = some s' → ∃ s, w.sections[i]? = some s ∧ s'.ptr = s.ptr ∧
      s'.index = s.index ∧ s'.link = s.link ∧ s'.kind = s.kind ∧ s'.sh = s.sh ∧
      s'.chunks.map (·.data) = s.chunks.map (·.data) := by
  simp only [Writer.modChunk, bind_ok] at h
  obtain ⟨s0, h0, h⟩ := h
  split at h
  · cases h
    refine ⟨rfl, rfl, by simp [Writer.modSec], ?_⟩
    intro i s' hs'
    simp only [Writer.modSec, List.getElem?_map, Option.map_eq_some_iff] at hs'
    obtain ⟨s, hs, rfl⟩ := hs'
    refine ⟨s, hs, ?_⟩
    split
    · refine ⟨rfl, rfl, rfl, rfl, rfl, ?_⟩
      simp only
      apply List.ext_getElem?
      intro j
      simp only [List.getElem?_map, List.getElem?_modify]
      cases hc : s.chunks[j]? with
      | none => simp
      | some c => by_cases hj : r.chunk = j <;> simp [hj, hf]
    · exact ⟨rfl, rfl, rfl, rfl, rfl, rfl⟩
  · cases h

theorem noteSymbol_frame {w w' : Writer} {e : Sym} {sec : Option SectionRef} {r : SymbolRef}
    (h : w.noteSymbol e sec r = .ok w') :
    w'.shstr = w.shstr ∧ w'.nextPtr = w.nextPtr ∧ w'.sections.length = w.sections.length ∧
    ∀ (i : Nat) (s' : Section), w'.sections[i]? = some s' → ∃ s, w.sections[i]? = some s ∧ s'.ptr = s.ptr ∧
      s'.index = s.index ∧ s'.link = s.link ∧ s'.kind = s.kind ∧ s'.sh = s.sh ∧
      s'.chunks.map (·.data) = s.chunks.map (·.data) := by
  have hid : ∀ w : Writer, w.shstr = w.shstr ∧ w.nextPtr = w.nextPtr ∧ w.sections.length = w.sections.length ∧
    ∀ (i : Nat) (s' : Section), w.sections[i]? = some s' → ∃ s, w.sections[i]? = some s ∧ s'.ptr = s.ptr ∧
      s'.index = s.index ∧ s'.link = s.link ∧ s'.kind = s.kind ∧ s'.sh = s.sh ∧
      s'.chunks.map (·.data) = s.chunks.map (·.data) :=
    fun w => ⟨rfl, rfl, rfl, fun i s' h => ⟨s', h, rfl, rfl, rfl, rfl, rfl, rfl⟩⟩
  unfold Writer.noteSymbol at h
  split at h
  · cases h; exact hid _
  · split at h
    · exact modChunk_frame (fun c => by unfold Chunk.addSymbol; split <;> rfl) h
    · cases h; exact hid _

theorem Merged.absorb {b s : Section} {ps : List (SectionHeader × Option Bytes)} (h : Merged b s ps)
    {s' : Section} {p : SectionHeader × Option Bytes}
    (e1 : s'.ptr = s.ptr) (e2 : s'.index = s.index) (e3 : s'.link = s.link) (e4 : s'.kind = s.kind)
    (e5 : s'.sh = { s.sh with sh_size := s.sh.sh_size + p.1.sh_size, sh_addralign := max s.sh.sh_addralign p.1.sh_addralign })
    (e6 : s'.chunks.map (·.data) = s.chunks.map (·.data) ++ p.2.toList) : Merged b s' (ps ++ [p]) := by
  refine ⟨e1.trans h.ptr, e2.trans h.index, e3.trans h.link, e4.trans h.kind, ?_, ?_⟩
  · rw [e5, h.sh]; simp [Nat.add_assoc]
  · rw [e6, h.data, List.filterMap_append, List.append_assoc]
    congr 2

theorem WInv.push {opts : Options} {w0 w w' : Writer} {ops : List Op} {pn : List Name}
    (hI : WInv opts w0 ops w pn) {name : Name} {sh : SectionHeader} {data : Option Bytes} {r : SectionRef}
    (h : w.pushSection name sh data = .ok (w', r)) :
    ∃ pn', WInv opts w0 (ops ++ [.push name sh data r]) w' pn' := by
  have hp : ∀ n, pushesOf n (ops ++ [.push name sh data r]) =
      pushesOf n ops ++ if name = n then [(sh, data)] else [] := fun n => by
    rw [pushesOf_append]; congr 1
  have hholds := hI.names.getOrCreate name
  by_cases hmem : name ∈ tabNames opts.hashStyle ++ pn
  · -- known name
    refine ⟨pn, ?_⟩
    have he := hI.names.getOrCreate_mem hmem
    simp only [Writer.pushSection, he] at h
    have hidx := List.idxOf_lt_length_iff.2 hmem
    generalize hk : (tabNames opts.hashStyle ++ pn).idxOf name = k at h he hidx
    have hkn : (tabNames opts.hashStyle ++ pn)[k]? = some name := by
      rw [← hk, List.getElem?_eq_getElem (List.idxOf_lt_length_iff.2 hmem), List.getElem_idxOf]
    have hother : ∀ j n, j ≠ k → (tabNames opts.hashStyle ++ pn)[j]? = some n → name ≠ n := by
      intro j n hj hn heq
      subst heq
      obtain ⟨h1, h2⟩ := List.getElem?_eq_some_iff.1 hn
      obtain ⟨h3, h4⟩ := List.getElem?_eq_some_iff.1 hkn
      exact hj (List.getElem_inj hI.names.nodup |>.1 (h2.trans h4.symm))
    cases hs : w.sections[k]? with
    | none =>
      rw [hs] at h; simp at h
    | some s =>
      rw [hs] at h
      simp only at h
      -- the common part: section k becomes s'
      have main : ∀ s' : Section, w'.sections = w.sections.set k s' → s'.ptr = s.ptr → s'.index = s.index → s'.link = s.link → s'.kind = s.kind →
          s'.sh = { s.sh with sh_size := s.sh.sh_size + sh.sh_size, sh_addralign := max s.sh.sh_addralign sh.sh_addralign } →
          s'.chunks.map (·.data) = s.chunks.map (·.data) ++ data.toList →
          w'.shstr = w.shstr → w'.nextPtr = w.nextPtr →
          WInv opts w0 (ops ++ [.push name sh data r]) w' pn := by
        intro s' hw3 e1 e2 e3 e4 e5 e6 hw1 hw2
        have hklen : k < w.sections.length := by rw [hI.len]; exact hidx
        have hget : ∀ j t, w'.sections[j]? = some t → (j = k ∧ t = s') ∨ (j ≠ k ∧ w.sections[j]? = some t) := by
          intro j t hj
          rw [hw3] at hj
          by_cases hjk : k = j
          · subst hjk
            rw [List.getElem?_set_self hklen] at hj
            left; exact ⟨rfl, by simpa using hj.symm⟩
          · rw [List.getElem?_set_ne hjk] at hj
            right; exact ⟨fun e => hjk e.symm, hj⟩
        refine ⟨hw1 ▸ hI.names, by rw [hw3, List.length_set]; exact hI.len, ?_, ?_, hw2 ▸ hI.next, ?_⟩
        · intro j t hj ht
          rcases hget j t ht with ⟨rfl, rfl⟩ | ⟨hjk, ht⟩
          · obtain ⟨b, n, hb, hn, hm⟩ := hI.base j s hj hs
            have : n = name := by
              rw [List.getElem?_append_left hj, hn] at hkn; simpa using hkn
            subst this
            refine ⟨b, n, hb, hn, ?_⟩
            rw [hp, if_pos rfl]
            exact hm.absorb e1 e2 e3 e4 e5 e6
          · obtain ⟨b, n, hb, hn, hm⟩ := hI.base j t hj ht
            refine ⟨b, n, hb, hn, ?_⟩
            rw [hp, if_neg (hother j n hjk (by rw [List.getElem?_append_left hj]; exact hn)), List.append_nil]
            exact hm
        · intro j t ht
          rcases hget _ t ht with ⟨hjk, rfl⟩ | ⟨hjk, ht⟩
          · obtain ⟨n, p, ps, hn, hps, hm⟩ := hI.pushed j s (by rw [hjk]; exact hs)
            have : n = name := by
              rw [← hjk, List.getElem?_append_right (by omega)] at hkn
              rw [Nat.add_sub_cancel_left, hn] at hkn; simpa using hkn
            subst this
            refine ⟨n, p, ps ++ [(sh, data)], hn, by rw [hp, if_pos rfl, hps]; rfl, ?_⟩
            exact hm.absorb e1 e2 e3 e4 e5 e6
          · obtain ⟨n, p, ps, hn, hps, hm⟩ := hI.pushed j t ht
            refine ⟨n, p, ps, hn, ?_, hm⟩
            rw [hp, if_neg (hother _ n hjk (by
              rw [List.getElem?_append_right (by omega), Nat.add_sub_cancel_left]; exact hn)), List.append_nil]
            exact hps
        · intro n hn
          rw [hp, if_neg (fun e : name = n => hn (e ▸ hmem)), List.append_nil]; exact hI.fresh n hn
      cases data with
      | some d =>
        simp only [Bool.false_eq_true, if_false, Except.ok.injEq, Prod.mk.injEq] at h
        obtain ⟨rfl, rfl⟩ := h
        exact main _ rfl rfl rfl rfl rfl rfl (by simp [Section.addChunk]) rfl rfl
      | none =>
        simp only [Bool.false_eq_true, if_false] at h
        split at h
        · cases h
        · simp only [Except.ok.injEq, Prod.mk.injEq] at h
          obtain ⟨rfl, rfl⟩ := h
          exact main _ rfl rfl rfl rfl rfl rfl (by simp) rfl rfl
  · -- new name
    refine ⟨pn ++ [name], ?_⟩
    have he := hI.names.getOrCreate_new hmem
    simp only [intern, hmem, if_false, List.append_assoc] at hholds
    cases hg : w.shstr.getOrCreate name with
    | mk e t =>
    rw [hg] at he hholds
    simp only at he hholds
    simp only [Writer.pushSection, hg, he, if_true, Except.ok.injEq, Prod.mk.injEq] at h
    obtain ⟨rfl, rfl⟩ := h
    have hoff : ∀ n ∈ tabNames opts.hashStyle ++ pn,
        nameOff (tabNames opts.hashStyle ++ (pn ++ [name])) n = nameOff (tabNames opts.hashStyle ++ pn) n := by
      intro n hn
      unfold nameOff
      rw [take_idxOf_prefix (ns := tabNames opts.hashStyle ++ pn) ⟨[name], by simp⟩ hn]
    have hne : ∀ n, n ∈ tabNames opts.hashStyle ++ pn → name ≠ n := fun n hn e => hmem (e ▸ hn)
    have hlen' : (tabNames opts.hashStyle ++ (pn ++ [name])).length = w.sections.length + 1 := by
      rw [hI.len]; simp; omega
    refine ⟨hholds, by rw [hlen']; simp, ?_, ?_, ?_, ?_⟩
    · intro j s hj hs
      have hjl : j < w.sections.length := by rw [hI.len]; simp; omega
      simp only at hs
      rw [List.getElem?_append_left hjl] at hs
      obtain ⟨b, n, hb, hn, hm⟩ := hI.base j s hj hs
      refine ⟨b, n, hb, hn, ?_⟩
      rw [hp, if_neg (hne n (List.mem_append_left _ (List.mem_of_getElem? hn))), List.append_nil]
      exact hm
    · intro j s hs
      have hl : w.sections.length = (tabNames opts.hashStyle).length + pn.length := by rw [hI.len]; simp
      simp only at hs
      by_cases hj : j < pn.length
      · rw [List.getElem?_append_left (by omega)] at hs
        obtain ⟨n, p, ps, hn, hps, hm⟩ := hI.pushed j s hs
        have hnm : n ∈ tabNames opts.hashStyle ++ pn := List.mem_append_right _ (List.mem_of_getElem? hn)
        refine ⟨n, p, ps, by rw [List.getElem?_append_left hj]; exact hn, ?_, ?_⟩
        · rw [hp, if_neg (hne n hnm), List.append_nil]; exact hps
        · rw [hoff n hnm]; exact hm
      · rw [List.getElem?_append_right (by omega)] at hs
        have hj0 : j = pn.length := by
          apply Classical.byContradiction
          intro hne'
          rw [List.getElem?_eq_none (by simp; omega)] at hs; cases hs
        subst hj0
        rw [hl, Nat.sub_self] at hs
        simp only [List.getElem?_cons_zero, Option.some.injEq] at hs
        refine ⟨name, (sh, data), [], by simp, ?_, ?_⟩
        · rw [hp, if_pos rfl, hI.fresh name hmem]; rfl
        · subst hs
          have : nameOff (tabNames opts.hashStyle ++ (pn ++ [name])) name =
              StringTable.total (tabNames opts.hashStyle ++ pn) := by
            unfold nameOff
            rw [← List.append_assoc, List.idxOf_append, if_neg hmem]
            have : List.idxOf name [name] + (tabNames opts.hashStyle ++ pn).length =
                (tabNames opts.hashStyle ++ pn).length := by simp
            rw [this, List.take_left]
          refine ⟨?_, rfl, rfl, rfl, ?_, ?_⟩
          · simp [firstSection, hI.next]
          · simp [firstSection, this]
          · simp [firstSection]
    · simp only; rw [hI.next]; simp; omega
    · intro n hn
      simp only [List.mem_append, List.mem_singleton, not_or] at hn
      rw [hp, if_neg (fun e => hn.2.2 e.symm), List.append_nil]
      exact hI.fresh n (by simp only [List.mem_append, not_or]; exact ⟨hn.1, hn.2.1⟩)

theorem WInv.step {opts : Options} {w0 w w' : Writer} {ops : List Op} {pn : List Name} {op : Op}
    (hI : WInv opts w0 ops w pn) (hs : Step w op w') : ∃ pn', WInv opts w0 (ops ++ [op]) w' pn' := by
  cases hs with
  | push h => exact hI.push h
  | sym h =>
    refine ⟨pn, ?_⟩
    simp only [Writer.addSymbol] at h
    split at h
    · cases h
    · simp only [bind_ok] at h
      obtain ⟨w1, h1, h2⟩ := h
      cases h2
      obtain ⟨a, b, c, d⟩ := noteSymbol_frame h1
      exact hI.frame (fun _ => rfl) a b c d
  | dynsym h =>
    refine ⟨pn, ?_⟩
    simp only [Writer.addDynSymbol] at h
    split at h
    · cases h
    · split at h
      · cases h
        exact hI.frame (fun _ => rfl) rfl rfl rfl (fun i s' h => ⟨s', h, rfl, rfl, rfl, rfl, rfl, rfl⟩)
      · split at h
        · cases h
        · cases h
          exact hI.frame (fun _ => rfl) rfl rfl rfl (fun i s' h => ⟨s', h, rfl, rfl, rfl, rfl, rfl, rfl⟩)
  | reloc h =>
    refine ⟨pn, ?_⟩
    simp only [Writer.addRelocation] at h
    split at h
    · cases h
    · obtain ⟨a, b, c, d⟩ := modChunk_frame (f := fun c => c.addRelocation _ _) (fun c => rfl) h
      exact hI.frame (fun _ => rfl) a b c d
  | needed =>
    exact ⟨pn, hI.frame (fun _ => rfl) rfl rfl rfl (fun i s' h => ⟨s', h, rfl, rfl, rfl, rfl, rfl, rfl⟩)⟩

theorem Hist.winv {opts : Options} {ops : List Op} {w : Writer} (h : Hist opts ops w) :
    ∃ w0 pn, Writer.new opts = .ok w0 ∧ WInv opts w0 ops w pn := by
  induction h with
  | init h => exact ⟨_, [], h, WInv.init h⟩
  | step h hs ih =>
    obtain ⟨w0, pn, h0, hI⟩ := ih
    obtain ⟨pn', hI'⟩ := hI.step hs
    exact ⟨w0, pn', h0, hI'⟩

end Dld
