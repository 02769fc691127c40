import Verif.Lemmas.History
/-! # What a history says about the writer -/
namespace Dld
open StringTable

theorem mem_pushesOf {n : Name} {ops : List Op} {p : SectionHeader × Option Bytes}
    (h : p ∈ pushesOf n ops) : ∃ r, Op.push n p.1 p.2 r ∈ ops := by
  induction ops with
  | nil => cases h
  | cons op ops ih =>
    cases op with
    | push m sh d r =>
      simp only [pushesOf] at h
      split at h
      · next hm =>
        subst hm
        rcases List.mem_cons.1 h with rfl | h
        · exact ⟨r, by simp⟩
        · obtain ⟨r', h'⟩ := ih h; exact ⟨r', by simp [h']⟩
      · obtain ⟨r', h'⟩ := ih h; exact ⟨r', by simp [h']⟩
    | sym | dynsym | reloc | needed => obtain ⟨r', h'⟩ := ih h; exact ⟨r', by simp [h']⟩

/-- what identifies a section of a new writer, without its alignment -/
def Section.origin (s : Section) : Nat × Option Nat × Kind × Nat × Nat × Nat :=
  (s.ptr, s.link, s.kind, s.sh.sh_type, s.sh.sh_flags, s.sh.sh_entsize)

/-- the sections `Writer::new` makes -/
def origins (h : HashStyle) : List (Nat × Option Nat × Kind × Nat × Nat × Nat) :=
  (baseIdents h).map fun i => (i.1, i.2.1, i.2.2.1, i.2.2.2.1, i.2.2.2.2.1, i.2.2.2.2.2.1)

/-- a section is one of the writer's own or was made by a push -/
def Known (hs : HashStyle) (ops : List Op) (s : Section) : Prop :=
  s.origin ∈ origins hs ∨
  (P.first ≤ s.ptr ∧ s.kind = .plain ∧ s.link = none ∧
    ∃ n sh d r, Op.push n sh d r ∈ ops ∧ n ∉ tabNames hs ∧ s.sh.sh_type = sh.sh_type ∧
      s.sh.sh_flags = sh.sh_flags ∧ s.sh.sh_entsize = sh.sh_entsize)

theorem tabNames_perm (h : HashStyle) : (baseNames h).Perm (tabNames h) := by cases h <;> decide

theorem WInv.base0 {opts : Options} {w0 w : Writer} {ops : List Op} {pn : List Name}
    (hI : WInv opts w0 ops w pn) (h0 : Writer.new opts = .ok w0) {i : Nat} {s : Section}
    (hi : i < (tabNames opts.hashStyle).length) (hs : w.sections[i]? = some s) :
    ∃ b n m, w0.sections[i]? = some b ∧ (tabNames opts.hashStyle)[i]? = some n ∧
      (baseNames opts.hashStyle)[i]? = some m ∧ b.sh.sh_name = u32 (nameOff (tabNames opts.hashStyle) m) ∧
      (baseIdents opts.hashStyle)[i]? = some b.ident ∧ Merged b s (pushesOf n ops) := by
  obtain ⟨b, n, hb, hn, hm⟩ := hI.base i s hi hs
  have h1 := (new_shstr opts w0 h0).2
  have h2 := (new_idents opts w0 h0).1
  refine ⟨b, n, (baseNames opts.hashStyle)[i]'(by rw [(base_length _).1]; exact hi), hb, hn,
    by simp, ?_, ?_, hm⟩
  · have := congrArg (·[i]?) h1
    simp only [List.getElem?_map, hb, Option.map_some] at this
    rw [List.getElem?_eq_getElem (by rw [(base_length _).1]; exact hi)] at this
    simpa using this
  · have := congrArg (·[i]?) h2
    simp only [List.getElem?_map, hb, Option.map_some] at this
    exact this.symm

theorem WInv.known {opts : Options} {w0 w : Writer} {ops : List Op} {pn : List Name}
    (hI : WInv opts w0 ops w pn) (h0 : Writer.new opts = .ok w0) :
    ∀ s ∈ w.sections, Known opts.hashStyle ops s := by
  intro s hs
  obtain ⟨i, hi, rfl⟩ := List.getElem_of_mem hs
  by_cases hlt : i < (tabNames opts.hashStyle).length
  · obtain ⟨b, n, m, hb, hn, hm, hname, hid, hM⟩ := hI.base0 h0 hlt (List.getElem?_eq_getElem hi)
    left
    have := List.mem_of_getElem? hid
    unfold origins
    refine List.mem_map.2 ⟨b.ident, this, ?_⟩
    simp only [Section.ident, Section.origin, hM.ptr, hM.link, hM.kind]
    rw [hM.sh]
  · obtain ⟨k, rfl⟩ : ∃ k, i = (tabNames opts.hashStyle).length + k := ⟨i - (tabNames opts.hashStyle).length, by omega⟩
    obtain ⟨n, p, ps, hn, hps, hM⟩ := hI.pushed k _ (List.getElem?_eq_getElem hi)
    right
    obtain ⟨r, hr⟩ := mem_pushesOf (n := n) (ops := ops) (p := p) (by rw [hps]; simp)
    refine ⟨?_, hM.kind, hM.link, n, p.1, p.2, r, hr, ?_, ?_, ?_, ?_⟩
    · rw [hM.ptr]; simp [firstSection]
    · have := List.nodup_append.1 hI.names.nodup
      intro hmem
      exact this.2.2 n hmem n (List.mem_of_getElem? hn) rfl
    all_goals rw [hM.sh]; simp [firstSection]

theorem nameOff_prefix {ns ns' : List Name} {n : Name} (hp : ns <+: ns') (hn : n ∈ ns) :
    nameOff ns' n = nameOff ns n := by
  unfold nameOff; rw [take_idxOf_prefix hp hn]

theorem WInv.sh_names {opts : Options} {w0 w : Writer} {ops : List Op} {pn : List Name}
    (hI : WInv opts w0 ops w pn) (h0 : Writer.new opts = .ok w0) :
    w.sections.map (·.sh.sh_name) =
      (baseNames opts.hashStyle ++ pn).map fun n => u32 (nameOff (tabNames opts.hashStyle ++ pn) n) := by
  have hl := hI.len
  have hb := (base_length opts.hashStyle).1
  apply List.ext_getElem?
  intro i
  simp only [List.getElem?_map]
  by_cases hi : i < w.sections.length
  · rw [List.getElem?_eq_getElem hi]
    by_cases hlt : i < (tabNames opts.hashStyle).length
    · obtain ⟨b, n, m, _, hn, hm, hname, hid, hM⟩ := hI.base0 h0 hlt (List.getElem?_eq_getElem hi)
      rw [List.getElem?_append_left (by omega), hm]
      simp only [Option.map_some, Option.some.injEq]
      rw [nameOff_prefix ⟨pn, rfl⟩ ((tabNames_perm _).mem_iff.1 (List.mem_of_getElem? hm)), ← hname, hM.sh]
    · obtain ⟨k, rfl⟩ : ∃ k, i = (tabNames opts.hashStyle).length + k := ⟨i - (tabNames opts.hashStyle).length, by omega⟩
      obtain ⟨n, p, ps, hn, hps, hM⟩ := hI.pushed k _ (List.getElem?_eq_getElem hi)
      rw [List.getElem?_append_right (by omega), hb, Nat.add_sub_cancel_left, hn]
      simp only [Option.map_some, Option.some.injEq]
      rw [hM.sh]; simp [firstSection]
  · rw [List.getElem?_eq_none (by omega), List.getElem?_eq_none (by
      simp only [List.length_append] at hl ⊢; omega)]
    rfl

theorem WInv.ptrs {opts : Options} {w0 w : Writer} {ops : List Op} {pn : List Name}
    (hI : WInv opts w0 ops w pn) (h0 : Writer.new opts = .ok w0) :
    w.sections.map (·.ptr) =
      (baseIdents opts.hashStyle).map (·.1) ++ List.range' P.first pn.length := by
  have hl := hI.len
  have hb := (base_length opts.hashStyle).2
  apply List.ext_getElem?
  intro i
  simp only [List.getElem?_map]
  by_cases hi : i < w.sections.length
  · rw [List.getElem?_eq_getElem hi]
    by_cases hlt : i < (tabNames opts.hashStyle).length
    · obtain ⟨b, n, m, _, hn, hm, hname, hid, hM⟩ := hI.base0 h0 hlt (List.getElem?_eq_getElem hi)
      rw [List.getElem?_append_left (by simp; omega), List.getElem?_map, hid]
      simp [hM.ptr, Section.ident]
    · obtain ⟨k, rfl⟩ : ∃ k, i = (tabNames opts.hashStyle).length + k := ⟨i - (tabNames opts.hashStyle).length, by omega⟩
      obtain ⟨n, p, ps, hn, hps, hM⟩ := hI.pushed k _ (List.getElem?_eq_getElem hi)
      rw [List.getElem?_append_right (by simp; omega), List.length_map, hb, Nat.add_sub_cancel_left]
      rw [List.length_append] at hl
      rw [List.getElem?_range' (by omega)]
      simp [hM.ptr, firstSection]
  · rw [List.getElem?_eq_none (by omega), List.getElem?_eq_none (by
      simp only [List.length_append, List.length_map, List.length_range'] at hl ⊢; omega)]
    rfl

theorem baseIdents_ptr (h : HashStyle) : ((baseIdents h).map (·.1)).Nodup ∧
    ∀ p ∈ (baseIdents h).map (·.1), p < P.first := by cases h <;> decide

theorem WInv.ptrs_nodup {opts : Options} {w0 w : Writer} {ops : List Op} {pn : List Name}
    (hI : WInv opts w0 ops w pn) (h0 : Writer.new opts = .ok w0) : (w.sections.map (·.ptr)).Nodup := by
  rw [hI.ptrs h0]
  have hb := baseIdents_ptr opts.hashStyle
  refine List.nodup_append.2 ⟨hb.1, List.nodup_range' .., ?_⟩
  intro a ha b hb' he
  have h1 := hb.2 a ha
  rw [List.mem_range'] at hb'
  obtain ⟨k, _, hk⟩ := hb'
  omega

/-! ### Fields no call touches, and the string tables -/

theorem modChunk_rest {w w' : Writer} {r : SectionRef} {f : Chunk → Chunk} (h : w.modChunk r f = .ok w') :
    w' = { w with sections := w'.sections } := by
  simp only [Writer.modChunk, bind_ok] at h
  obtain ⟨s, _, h⟩ := h
  split at h
  · cases h; rfl
  · cases h

theorem noteSymbol_rest {w w' : Writer} {e : Sym} {sec : Option SectionRef} {r : SymbolRef}
    (h : w.noteSymbol e sec r = .ok w') : w' = { w with sections := w'.sections } := by
  unfold Writer.noteSymbol at h
  split at h
  · cases h; rfl
  · split at h
    · exact modChunk_rest h
    · cases h; rfl

/-- the fields no call of the interface touches -/
structure Untouched (w : Writer) : Prop where
  eh : w.eh = Writer.initHeader
  dynRels : w.dynRels = []
  pltRels : w.pltRels = []
  gotLen : w.gotLen = 1
  gotPlt : w.gotPlt = []
  programHeaders : w.programHeaders = []
  pVaddr : w.pVaddr = 0x200000
  startPVaddr : w.startPVaddr = 0x200000
  fileOffset : w.fileOffset = 0
  plt : w.plt = []
  copyRel : w.copyRel = {}

theorem Step.untouched {w w' : Writer} {op : Op} (h : Step w op w') (hu : Untouched w) : Untouched w' := by
  cases h with
  | push h =>
    unfold Writer.pushSection at h
    simp only at h
    split at h
    · cases h; exact ⟨hu.1, hu.2, hu.3, hu.4, hu.5, hu.6, hu.7, hu.8, hu.9, hu.10, hu.11⟩
    · split at h
      · cases h
      · split at h
        · cases h; exact ⟨hu.1, hu.2, hu.3, hu.4, hu.5, hu.6, hu.7, hu.8, hu.9, hu.10, hu.11⟩
        · split at h
          · cases h
          · cases h; exact ⟨hu.1, hu.2, hu.3, hu.4, hu.5, hu.6, hu.7, hu.8, hu.9, hu.10, hu.11⟩
  | sym h =>
    simp only [Writer.addSymbol] at h
    split at h
    · cases h
    · simp only [bind_ok] at h
      obtain ⟨w1, h1, h2⟩ := h
      cases h2
      rw [noteSymbol_rest h1]
      exact ⟨hu.1, hu.2, hu.3, hu.4, hu.5, hu.6, hu.7, hu.8, hu.9, hu.10, hu.11⟩
  | dynsym h =>
    simp only [Writer.addDynSymbol] at h
    split at h
    · cases h
    · split at h
      · cases h; exact ⟨hu.1, hu.2, hu.3, hu.4, hu.5, hu.6, hu.7, hu.8, hu.9, hu.10, hu.11⟩
      · split at h
        · cases h
        · cases h; exact ⟨hu.1, hu.2, hu.3, hu.4, hu.5, hu.6, hu.7, hu.8, hu.9, hu.10, hu.11⟩
  | reloc h =>
    simp only [Writer.addRelocation] at h
    split at h
    · cases h
    · rw [modChunk_rest h]; exact ⟨hu.1, hu.2, hu.3, hu.4, hu.5, hu.6, hu.7, hu.8, hu.9, hu.10, hu.11⟩
  | needed => exact ⟨hu.1, hu.2, hu.3, hu.4, hu.5, hu.6, hu.7, hu.8, hu.9, hu.10, hu.11⟩

theorem Hist.untouched {opts : Options} {ops : List Op} {w : Writer} (h : Hist opts ops w) : Untouched w := by
  induction h with
  | init h =>
    simp only [Writer.new, bind_ok] at h
    obtain ⟨f, hf, h⟩ := h
    cases h
    exact ⟨rfl, rfl, rfl, rfl, rfl, rfl, rfl, rfl, rfl, rfl, rfl⟩
  | step _ hs ih => exact hs.untouched ih

/-- the names asked for in the symbol name table -/
def symNames : List Op → List Name
  | [] => []
  | .sym _ _ n _ _ :: ops => n :: symNames ops
  | _ :: ops => symNames ops

/-- the names asked for in the dynamic string table -/
def dynNames : List Op → List Name
  | [] => []
  | .dynsym _ n _ _ :: ops => n :: dynNames ops
  | .needed n :: ops => n :: dynNames ops
  | _ :: ops => dynNames ops

theorem symNames_append (a b : List Op) : symNames (a ++ b) = symNames a ++ symNames b := by
  induction a with
  | nil => rfl
  | cons op a ih => cases op <;> simp [symNames, ih]

theorem dynNames_append (a b : List Op) : dynNames (a ++ b) = dynNames a ++ dynNames b := by
  induction a with
  | nil => rfl
  | cons op a ih => cases op <;> simp [dynNames, ih]

theorem internAll_append (ns a b : List Name) : internAll ns (a ++ b) = internAll (internAll ns a) b := by
  simp [internAll]

theorem Step.strs {w w' : Writer} {op : Op} (h : Step w op w') :
    w'.symstr = w.symstr.after (symNames [op]) ∧ w'.dynstr = w.dynstr.after (dynNames [op]) := by
  cases h with
  | push h =>
    unfold Writer.pushSection at h
    simp only at h
    split at h
    · cases h; exact ⟨rfl, rfl⟩
    · split at h
      · cases h
      · split at h
        · cases h; exact ⟨rfl, rfl⟩
        · split at h
          · cases h
          · cases h; exact ⟨rfl, rfl⟩
  | sym h =>
    simp only [Writer.addSymbol] at h
    split at h
    · cases h
    · simp only [bind_ok] at h
      obtain ⟨w1, h1, h2⟩ := h
      cases h2
      rw [noteSymbol_rest h1]
      exact ⟨rfl, rfl⟩
  | dynsym h =>
    simp only [Writer.addDynSymbol] at h
    split at h
    · cases h
    · split at h
      · cases h; exact ⟨rfl, rfl⟩
      · split at h
        · cases h
        · cases h; exact ⟨rfl, rfl⟩
  | reloc h =>
    simp only [Writer.addRelocation] at h
    split at h
    · cases h
    · rw [modChunk_rest h]; exact ⟨rfl, rfl⟩
  | needed => exact ⟨rfl, rfl⟩

theorem Hist.strs {opts : Options} {ops : List Op} {w : Writer} (h : Hist opts ops w) :
    ∃ f, opts.dynamicLinker.file = some f ∧ Holds w.symstr (internAll [[]] (symNames ops)) ∧
      Holds w.dynstr (internAll [[]] (f :: dynNames ops)) := by
  induction h with
  | init h =>
    simp only [Writer.new, bind_ok] at h
    obtain ⟨f, hf, h⟩ := h
    cases h
    rw [unwrap_ok] at hf
    exact ⟨f, hf, holds_default, holds_default.getOrCreate f⟩
  | step h hs ih =>
    obtain ⟨f, hf, h1, h2⟩ := ih
    obtain ⟨e1, e2⟩ := hs.strs
    refine ⟨f, hf, ?_, ?_⟩
    · rw [e1, symNames_append, internAll_append]; exact h1.after _
    · rw [e2, dynNames_append, ← List.cons_append, internAll_append]; exact h2.after _

end Dld
