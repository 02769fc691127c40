import Verif.Spec.Sound
import Verif.Lemmas.Blame
import Verif.Lemmas.LinkCalls
import Verif.Lemmas.Pushes
import Verif.Lemmas.Progress
/-! # Gathering the inputs does not crash -/
namespace Dld
open Writer Spec StringTable SymbolTable

variable {env : Env} {l : Linker} {opts : Options} {ops : List Op} {w w' : Writer}

/-! ### The writer's interface -/

theorem of_mem_symNames {n : Name} (h : n ∈ symNames ops) : ∃ s sec path r, Op.sym s sec n path r ∈ ops := by
  induction ops with
  | nil => cases h
  | cons op ops ih =>
    cases op with
    | sym s sec m path r =>
      simp only [symNames, List.mem_cons] at h
      rcases h with rfl | h
      · exact ⟨s, sec, path, r, by simp⟩
      · obtain ⟨a, b, c, d, h⟩ := ih h
        exact ⟨a, b, c, d, by simp [h]⟩
    | _ =>
      obtain ⟨a, b, c, d, h⟩ := ih (by simpa [symNames] using h)
      exact ⟨a, b, c, d, by simp [h]⟩

/-- pushing a section succeeds -/
theorem Hist.push_ok (h : Hist opts ops w) {n : Name} {sh : SectionHeader} {d : Option Bytes} (hn : n ∉ reservedNames) (hd : n = [] → d ≠ none) :
    ∃ x, w.pushSection n sh d = .ok x := by
  obtain ⟨w0, pn, h0, hI⟩ := h.winv
  unfold Writer.pushSection
  by_cases hm : n ∈ tabNames opts.hashStyle ++ pn
  · rw [hI.names.getOrCreate_mem hm]
    simp only [Bool.false_eq_true, if_false]
    have hlt : (tabNames opts.hashStyle ++ pn).idxOf n < w.sections.length := by rw [hI.len]; exact List.idxOf_lt_length_of_mem hm
    rw [List.getElem?_eq_getElem hlt]
    simp only []
    cases d with
    | some d => exact ⟨_, rfl⟩
    | none =>
      simp only []
      have hne : n ≠ [] := fun e => hd e rfl
      have hnt : n ∉ tabNames opts.hashStyle := fun ht => hn ((by cases opts.hashStyle <;> decide : ∀ n ∈ tabNames opts.hashStyle, n ≠ [] → n ∈ reservedNames) n ht hne)
      have hix : (tabNames opts.hashStyle ++ pn).idxOf n = (tabNames opts.hashStyle).length + pn.idxOf n := by
        rw [List.idxOf_append, if_neg hnt, Nat.add_comm]
      have hs := List.getElem?_eq_getElem hlt
      generalize w.sections[(tabNames opts.hashStyle ++ pn).idxOf n] = s at hs
      rw [hix] at hs
      obtain ⟨m, p, ps, _, _, hM⟩ := hI.pushed _ s hs
      have := congrArg List.length hM.data
      simp only [firstSection, List.length_map, List.map_cons, List.map_nil, List.length_append, List.length_cons, List.length_nil] at this
      rw [if_neg (by omega)]
      exact ⟨_, rfl⟩
  · rw [show w.shstr.getOrCreate n = ((w.shstr.getOrCreate n).1, (w.shstr.getOrCreate n).2) from rfl, hI.names.getOrCreate_new hm]
    exact ⟨_, rfl⟩

/-- a section that was pushed can be changed -/
theorem Hist.modChunk_ok (h : Hist opts ops w) {n : Name} {sh : SectionHeader} {d : Option Bytes} {r : SectionRef} (hp : Op.push n sh d r ∈ ops)
    (w2 : Writer) (hs : w2.sections = w.sections) (f : Chunk → Chunk) : ∃ x, w2.modChunk r f = .ok x := by
  obtain ⟨⟨c, hc, _⟩, _⟩ := h.cinv.push _ _ _ _ hp
  unfold Writer.chunkAt at hc
  unfold Writer.modChunk Writer.sec
  rw [hs]
  cases hf : List.find? (fun s => s.ptr == r.ptr) w.sections with
  | none => rw [hf] at hc; cases hc
  | some s =>
    rw [hf] at hc
    have hc : s.chunks[r.chunk]? = some c := hc
    have := (List.getElem?_eq_some_iff.1 hc).1
    exact ⟨_, by simp only [unwrap, ok_bind, if_pos this]; rfl⟩

theorem noteSymbol_ok (h : Hist opts ops w) {c : Option SectionRef} (hc : ∀ r, c = some r → ∃ n sh d, Op.push n sh d r ∈ ops)
    (w2 : Writer) (hs : w2.sections = w.sections) (s : Sym) (y : SymbolRef) : ∃ x, w2.noteSymbol s c y = .ok x := by
  unfold Writer.noteSymbol
  cases c with
  | none => exact ⟨_, rfl⟩
  | some r =>
    simp only []
    obtain ⟨n, sh, d, hp⟩ := hc r rfl
    split
    · exact h.modChunk_ok hp w2 hs _
    · exact ⟨_, rfl⟩

/-- adding a dynamic symbol succeeds if section symbols have no names -/
theorem Hist.addDynSymbol_ok (h : Hist opts ops w) (hs : ∀ s sec n path r, Op.sym s sec n path r ∈ ops → stType s.st_info = STT_SECTION → n = [])
    (s : Sym) (n : Name) (p : Path) : ∃ x, w.addDynSymbol s n p = .ok x := by
  cases ha : w.addDynSymbol s n p with
  | ok x => exact ⟨x, rfl⟩
  | error f =>
    exfalso
    simp only [Writer.addDynSymbol] at ha
    split at ha
    · next old hold =>
      simp only [SymbolTable.addSymbol] at hold
      split at hold
      · cases hold
      · split at hold
        · split at hold
          · next hr =>
            unfold resolve at hr
            split at hr
            · next hc =>
              simp [SHN_UNDEF] at hc
            · split at hr
              · cases hr
              · split at hr <;> cases hr
          · cases hold
        · cases hold
    · split at ha
      · cases ha
      · next e he =>
        obtain ⟨ns, nd, T⟩ := h.tableFacts
        obtain ⟨hn, hoff⟩ := Holds.get_some T.symstr he
        have hsome : (w.symtab.get (.named (u32 e.offset))).isSome := by
          rw [hoff]
          by_cases h0 : n = []
          · subst h0
            rw [nameOff_nil T.symstr.head]
            have h1 := mergeAll_of_new T.inv.sym 0
            rw [get_mapSyms] at h1
            cases hg : w.symtab.get (.named 0) with
            | some x => exact Option.isSome_iff_exists.2 ⟨x, hg⟩
            | none => rw [hg] at h1; exact absurd h1 (mergeAll_ne_none _ _)
          · rcases (T.symNames n).1 hn with h1 | h1
            · exact absurd h1 h0
            · obtain ⟨s', sec, path, r, hop⟩ := of_mem_symNames h1
              obtain ⟨h2, h3⟩ := T.inv.sref _ _ _ _ _ hop
              rw [← h3 fun h => h0 (hs _ _ _ _ _ hop h)]
              exact h2
        split at ha
        · next hnone => rw [hnone] at hsome; cases hsome
        · cases ha

/-- the name of a symbol in the table is known -/
theorem Hist.name_isSome (h : Hist opts ops w) (hl : w.symstr.totalLen < 2 ^ 32) {k : Nat} (hk : (w.symtab.get (.named k)).isSome) :
    (w.symstr.name k).isSome := by
  obtain ⟨ns, nd, T⟩ := h.tableFacts
  obtain ⟨s, hs⟩ := Option.isSome_iff_exists.1 hk
  obtain ⟨m, hm, e, _⟩ := T.named k s hs
  have h1 : nameOff ns m < 2 ^ 32 := by
    have := nameOff_lt hm
    rw [T.symstr.total] at hl
    omega
  rw [e, u32, Nat.mod_eq_of_lt h1, Holds_name T.symstr hm]
  rfl

/-! ### The driver -/

/-- the failure is an error that is reported -/
def Reported (f : Fail) : Prop := f ≠ .panic

theorem Reported.err {p : Path} {k : ErrKind} : Reported (.err p k) := by intro h; cases h

theorem Safe.unwrap_some {α : Type} {P : Fail → Prop} {o : Option α} {Q : α → Prop} (h : o.isSome) (hQ : ∀ a, o = some a → Q a) : Safe P Q (Dld.unwrap o) := by
  cases o with
  | none => cases h
  | some a => exact hQ a rfl

theorem Safe.of_exists {α : Type} {P : Fail → Prop} {m : M α} {Q : α → Prop} (h : ∃ x, m = .ok x) (hQ : ∀ a, m = .ok a → Q a) : Safe P Q m := by
  obtain ⟨x, rfl⟩ := h
  exact hQ x rfl

theorem InputAt.isInput {p : Path} {d : Bytes} {e : ElfFile} (h : InputAt env l p d e) : IsInput env l e := by
  cases h with
  | object hp hd he ho => exact .object hp hd he ho
  | member hp hd ha hn hm he ho => exact .member hp hd ha hm he ho

/-- The writer has received symbols and sections of the inputs only. The sections `R` were pushed, the symbols `K` have names. -/
structure Served (env : Env) (l : Linker) (R : SectionRef → Prop) (K : Nat → Prop) (ops : List Op) (w : Writer) : Prop where
  hist : Hist l.options ops w
  syms : FromInputs env l (fun _ _ _ => True) ops
  refs : ∀ r, R r → ∃ n sh d, Op.push n sh d r ∈ ops
  names : ∀ k, K k → (w.symstr.name k).isSome

/-- a writer that has -/
def Serves (env : Env) (l : Linker) (R : SectionRef → Prop) (K : Nat → Prop) (w : Writer) : Prop := ∃ ops, Served env l R K ops w

variable {R R' : SectionRef → Prop} {K K' : Nat → Prop}

theorem Serves.mono (h : Serves env l R K w) (hR : ∀ r, R' r → R r) (hK : ∀ k, K' k → K k) : Serves env l R' K' w := by
  obtain ⟨ops, h⟩ := h
  exact ⟨ops, h.hist, h.syms, fun r hr => h.refs r (hR r hr), fun k hk => h.names k (hK k hk)⟩

theorem Served.step (h : Served env l R K ops w) {op : Op} (hs : Step w op w')
    (hop : ∀ s sec n path r, op = Op.sym s sec n path r → ∃ d e, InputAt env l path d e ∧ s ∈ e.syms ∧ e.symName s.st_name = some n) :
    Served env l R K (ops ++ [op]) w' := by
  have hh := h.hist.step hs
  refine ⟨hh, ?_, ?_, ?_⟩
  · intro s sec n path r hm
    rcases List.mem_append.1 hm with hm | hm
    · exact h.syms _ _ _ _ _ hm
    · obtain ⟨d, e, h1, h2, h3⟩ := hop _ _ _ _ _ (List.mem_singleton.1 hm).symm
      obtain ⟨j, hj⟩ := List.getElem?_of_mem h2
      exact ⟨d, e, j, h1, hj, h3, trivial⟩
  · intro r hr
    obtain ⟨n, sh, d, hp⟩ := h.refs r hr
    exact ⟨n, sh, d, List.mem_append_left _ hp⟩
  · intro k hk
    obtain ⟨n, hn⟩ := Option.isSome_iff_exists.1 (h.names k hk)
    rw [h.hist.name_fwd hh hn]; rfl

theorem Served.small (h : Served env l R K ops w) (hn : NamesSmall env l) : w.symstr.totalLen < 2 ^ 32 := by
  obtain ⟨ns, nd, T⟩ := h.hist.tableFacts
  rw [T.symstr.total]
  refine hn.total h.syms T.symstr.nodup fun n hn => ?_
  rcases (T.symNames n).1 hn with h | h
  · exact .inl h
  · exact .inr (.inl h)

namespace Linker
variable {p : Path} {d : Bytes} {e : ElfFile}

/-- the object being processed is that file, and the sections it remembers were pushed -/
structure Handling (env : Env) (l : Linker) (R : SectionRef → Prop) (K : Nat → Prop) (p : Path) (d : Bytes) (e : ElfFile) (o : Obj) (w : Writer) : Prop where
  path : o.path = p
  data : o.data = d
  elf : o.elf = e
  serves : Serves env l (fun r => R r ∨ ∃ i, AMap.get? o.sectionRelocations i = some r) K w

theorem processSections_sound (hc : CleanFiles env l) (hf : SoundFiles env l) (hi : InputAt env l p d e) {o : Obj} (h : Handling env l R K p d e o w) :
    Safe Reported (fun (st : Obj × Writer) => Handling env l R K p d e st.1 st.2) (processSections o w) := by
  unfold processSections
  refine Safe.foldM' (I := fun (st : Obj × Writer) => Handling env l R K p d e st.1 st.2) _ ?_ _ h
  rintro ⟨sh, i⟩ hm ⟨o', w1⟩ hI
  have hsh : sh ∈ e.sectionHeaders := by
    have := List.mem_zipIdx_iff_getElem?.1 hm
    rw [← h.elf]
    exact List.mem_of_getElem? this
  simp only [processSection]
  split
  · exact hI
  · next ht =>
    have ht : sh.sh_type ∉ auxiliaryTypes := fun hm => ht (mem_skipped.2 hm)
    refine Safe.bind (Q := fun n => e.secName sh.sh_name = some n) (Safe.orErr (fun hn => .err) fun n hn => by rw [← hI.elf]; exact hn) fun name _ hname => ?_
    have hcopies : e.Copies sh name := ⟨hsh, ht, hname⟩
    refine Safe.bind (Q := fun x => name = [] → x ≠ none) ?_ fun data _ hdata => ?_
    · unfold sectionData
      split
      · next h8 =>
        rintro rfl
        exact absurd h8 (hf.unnamed _ _ _ _ hi hcopies)
      · next h8 =>
        rw [hI.data, if_pos (hf.inside _ _ _ _ hi hsh ht h8)]
        intro _ h; cases h
    · obtain ⟨ops, hS⟩ := hI.serves
      refine Safe.bind (Q := fun x => w1.pushSection name sh data = .ok x) (Safe.of_exists (hS.hist.push_ok (hc.names _ _ _ hi.isInput hcopies).2.1 hdata) fun _ h => h) fun x _ hx => ?_
      have hS' := hS.step (.push hx) (by rintro _ _ _ _ _ ⟨⟩)
      refine ⟨hI.path, hI.data, hI.elf, _, hS'.hist, hS'.syms, ?_, hS'.names⟩
      rintro r (hr | ⟨j, hj⟩)
      · exact hS'.refs r (.inl hr)
      · simp only [AMap.get?_insert] at hj
        split at hj
        · cases hj
          exact ⟨name, sh, data, by simp⟩
        · exact hS'.refs r (.inr ⟨j, hj⟩)

theorem processSymbols_sound (hi : InputAt env l p d e) {o : Obj} (h : Handling env l R K p d e o w) :
    Safe Reported (fun (st : Obj × Writer) => Handling env l R K p d e st.1 st.2) (processSymbols o w) := by
  unfold processSymbols
  refine Safe.foldM' (I := fun (st : Obj × Writer) => Handling env l R K p d e st.1 st.2) _ ?_ _ h
  rintro s hs ⟨o', w1⟩ hI
  rw [h.elf] at hs
  simp only [processSymbol]
  refine Safe.bind (Q := fun n => e.symName s.st_name = some n) (Safe.orErr (fun hn => .err) fun n hn => by rw [← hI.elf]; exact hn) fun name _ hname => ?_
  obtain ⟨ops, hS⟩ := hI.serves
  refine Safe.bind (Q := fun x => w1.addSymbol s (AMap.get? o'.sectionRelocations s.st_shndx) name p = .ok x) ?_ fun x _ hx => ?_
  · rw [hI.path]
    cases ha : w1.addSymbol s (AMap.get? o'.sectionRelocations s.st_shndx) name p with
    | ok x => rfl
    | error f =>
      show Reported f
      simp only [Writer.addSymbol] at ha
      split at ha
      · cases ha; exact .err
      · next t r _ =>
        obtain ⟨x, hx⟩ := noteSymbol_ok hS.hist (c := AMap.get? o'.sectionRelocations s.st_shndx) (fun r hr => hS.refs r (.inr ⟨_, hr⟩))
          { w1 with symstr := (w1.symstr.getOrCreate name).2, symtab := t } rfl { s with st_name := u32 (w1.symstr.getOrCreate name).1.offset } r
        rw [hx] at ha
        cases ha
  · exact ⟨hI.path, hI.data, hI.elf, _, hS.step (.sym hx) (by rintro _ _ _ _ _ ⟨⟩; exact ⟨d, e, hi, hs, hname⟩)⟩

theorem processRelocations_sound (hf : SoundFiles env l) (hi : InputAt env l p d e) {o : Obj} (h : Handling env l R K p d e o w) :
    Safe Reported (Serves env l R K) (processRelocations o w) := by
  unfold processRelocations
  refine Safe.mono (Q := Serves env l (fun r => R r ∨ ∃ i, AMap.get? o.sectionRelocations i = some r) K) ?_ fun _ _ h => h.mono (fun _ => .inl) fun _ => id
  refine Safe.foldM' (I := Serves env l (fun r => R r ∨ ∃ i, AMap.get? o.sectionRelocations i = some r) K) _ ?_ _ h.serves
  rintro ⟨pos, rs⟩ hm w1 hI
  refine Safe.foldM' (I := Serves env l (fun r => R r ∨ ∃ i, AMap.get? o.sectionRelocations i = some r) K) _ ?_ _ hI
  intro rel hr w2 hI
  have hmem : ∃ k j, (k, pos, j, rel) ∈ e.relocs := by
    rw [h.elf] at hm
    obtain ⟨k, hk⟩ := List.getElem?_of_mem hm
    obtain ⟨j, hj⟩ := List.getElem?_of_mem hr
    refine ⟨k, j, ?_⟩
    unfold ElfFile.relocs
    rw [List.mem_flatMap]
    exact ⟨((pos, rs), k), List.mem_zipIdx_iff_getElem?.2 hk, List.mem_map.2 ⟨(rel, j), List.mem_zipIdx_iff_getElem?.2 hj, rfl⟩⟩
  obtain ⟨k, j, hmem⟩ := hmem
  simp only [processReloc]
  split
  · exact hI
  · next h0 =>
    obtain ⟨hlt, hpos⟩ := hf.symbols _ _ _ _ _ _ _ hi hmem h0
    refine Safe.bind (Q := fun _ => True) (Safe.unwrap_some (by rw [h.elf, List.getElem?_eq_getElem hlt]; rfl) fun _ _ => trivial) fun s _ _ => ?_
    rw [if_neg (by omega)]
    split
    · exact hI
    · next sr hsr =>
      split
      · exact hI
      · next r _ =>
        rw [h.path]
        obtain ⟨ops, hS⟩ := hI
        cases ha : w2.addRelocation { r_offset := rel.r_offset, r_info := rel.r_sym * 2 ^ 32 + rel.r_type, r_addend := rel.r_addend.getD 0 } r sr p with
        | ok w3 => exact ⟨_, hS.step (.reloc ha) (by rintro _ _ _ _ _ ⟨⟩)⟩
        | error f =>
          show Reported f
          simp only [Writer.addRelocation] at ha
          split at ha
          · cases ha; exact .err
          · obtain ⟨n, sh, d', hp⟩ := hS.refs sr (.inr ⟨_, hsr⟩)
            obtain ⟨x, hx⟩ := hS.hist.modChunk_ok hp w2 rfl (·.addRelocation { r_offset := rel.r_offset, r_info := rel.r_sym * 2 ^ 32 + rel.r_type, r_addend := rel.r_addend.getD 0 } r)
            rw [hx] at ha
            cases ha

theorem matchDynsym_sound (hf : SoundFiles env l) {name : Name} (hp : p ∈ l.options.sharedLibs.map (·.1)) {s : Sym} {st : Writer × Bool} (h : Serves env l R K st.1) :
    Safe Reported (fun (st : Writer × Bool) => Serves env l R K st.1) (matchDynsym e p name st s) := by
  unfold matchDynsym
  refine Safe.bind (Q := fun _ => True) (Safe.orErr (fun hn => .err) fun _ _ => trivial) fun inner _ _ => ?_
  split
  · obtain ⟨ops, hS⟩ := h
    refine Safe.bind (Q := fun x => st.1.addDynSymbol s inner p = .ok x) (Safe.of_exists (hS.hist.addDynSymbol_ok ?_ _ _ _) fun _ h => h) fun x _ hx => ?_
    · intro s sec n path r hop h3
      obtain ⟨d, e, j, h1, h2, h4, _⟩ := hS.syms _ _ _ _ _ hop
      exact hf.nameless _ _ _ _ _ h1 (List.mem_of_getElem? h2) h3 h4
    · refine Safe.bind (Q := fun _ => True) (Safe.unwrap_some (hf.libraries p hp).1 fun _ _ => trivial) fun f _ _ => ?_
      have h1 := hS.step (.dynsym hx) (by rintro _ _ _ _ _ ⟨⟩)
      exact ⟨_, h1.step (op := .needed f) .needed (by rintro _ _ _ _ _ ⟨⟩)⟩
  · exact h

/-- the references are those of names -/
def Refer (K : Nat → Prop) (und : List SymbolRef) : Prop := ∀ r ∈ und, ∃ k, r = .named k ∧ K k

theorem symbolName_sound (h : Serves env l R K w) {r : SymbolRef} {k : Nat} (hr : r = .named k) (hk : K k) : ∃ x, w.symbolName r = .ok x := by
  obtain ⟨ops, hS⟩ := h
  obtain ⟨n, hn⟩ := Option.isSome_iff_exists.1 (hS.names k hk)
  subst hr
  exact ⟨some n, by simp only [Writer.symbolName, hn, unwrap, ok_bind]⟩

theorem findInLibs_sound (hf : SoundFiles env l) {order : Nat → List SymbolRef → List SymbolRef} (ho : ∀ i l, (order i l).Perm l) {und : List SymbolRef} (hu : Refer K und)
    (h : Serves env l R K w) :
    Safe Reported (fun (st : Writer × List SymbolRef) => Serves env l R K st.1 ∧ Refer K st.2) (findInLibs env l order und w) := by
  unfold findInLibs
  refine Safe.foldM' (I := fun (st : Writer × List SymbolRef) => Serves env l R K st.1 ∧ Refer K st.2) _ ?_ _ ⟨h, hu⟩
  rintro ⟨p, i⟩ hm ⟨w1, und1⟩ ⟨hI, hu1⟩
  have hp : p ∈ l.options.sharedLibs.map (·.1) := List.mem_of_getElem? (List.mem_zipIdx_iff_getElem?.1 hm)
  unfold searchLib
  refine Safe.bind (Q := fun d => env.read p = some d) (Safe.orErr (fun hn => .err) fun _ h => h) fun d _ hd => ?_
  refine Safe.bind (Q := fun _ => True) (Safe.unwrap_some ((hf.libraries p hp).2 d hd) fun _ _ => trivial) fun e _ he => ?_
  refine Safe.bind (Q := fun (st : Writer × List SymbolRef) => Serves env l R K st.1) ?_ fun st _ hst => ⟨hst, fun r hr => hu1 r (List.mem_filter.1 hr).1⟩
  refine Safe.foldM' (I := fun (st : Writer × List SymbolRef) => Serves env l R K st.1) _ ?_ _ hI
  intro r hr st hI
  obtain ⟨k, hk1, hk2⟩ := hu1 r ((ho _ _).mem_iff.1 hr)
  unfold searchLibEntry
  refine Safe.bind (Q := fun _ => True) (Safe.of_exists (symbolName_sound hI hk1 hk2) fun _ _ => trivial) fun o _ _ => ?_
  cases o with
  | none => exact hI
  | some name =>
    refine Safe.bind (Q := fun (st : Writer × Bool) => Serves env l R K st.1) ?_ fun st _ hst => hst
    exact Safe.foldM' (I := fun (st : Writer × Bool) => Serves env l R K st.1) _ (fun s hs st hI => matchDynsym_sound hf hp hI) _ hI

theorem linkMember_sound (hc : CleanFiles env l) (hf : SoundFiles env l) {data : Bytes} {ar : ArFile} {n : Name} {m : Bytes} (hp : p ∈ l.archives) (hd : env.read p = some data)
    (ha : env.parseAr data = some ar) (hn : ar.memberOfSymbol n = some m) (h : Serves env l (fun _ => False) K w) :
    Safe Reported (Serves env l (fun _ => False) K) (linkMember env p ar w m) := by
  obtain ⟨d, hm, hob⟩ := hf.members p hp _ _ _ _ hd ha hn
  unfold linkMember
  refine Safe.bind (Q := fun d' => d' = d) (Safe.unwrap_some (by rw [hm]; rfl) fun d' h => by rw [hm] at h; cases h; rfl) ?_
  intro d' _ hdd
  rw [hdd]
  refine Safe.bind (Q := fun o => ∃ e, env.parseElf d = some e ∧ e.isObjectFile = true ∧ o = some { path := p, data := d, elf := e }) ?_ fun o _ ho => ?_
  · unfold toElfObject
    refine Safe.bind (Q := fun e => env.parseElf d = some e) (Safe.orErr (fun he => .err) fun _ h => h) fun e _ he => ?_
    exact ⟨e, he, hob e he, by rw [if_pos (hob e he)]⟩
  · obtain ⟨e, he, hob, rfl⟩ := ho
    refine Safe.bind (Q := fun o' => o' = ({ path := p, data := d, elf := e } : Obj)) (Safe.unwrap_some rfl fun o' h => by cases h; rfl) ?_
    rintro _ _ rfl
    have hi : InputAt env l p d e := .member hp hd ha hn hm he hob
    refine Safe.bind (processSections_sound (R := fun _ => False) hc hf hi ⟨rfl, rfl, rfl, h.mono (by rintro r (hr | ⟨i, hi⟩); exact hr; cases hi) fun _ => id⟩) fun st _ hst => ?_
    refine Safe.bind (processSymbols_sound hi hst) fun st _ hst => ?_
    exact processRelocations_sound hf hi hst

theorem processArchives_sound (hc : CleanFiles env l) (hf : SoundFiles env l) {sched : LinkSched} (hv : sched.Valid) {round : Nat} {und : List SymbolRef} (hu : Refer K und)
    (h : Serves env l (fun _ => False) K w) :
    Safe Reported (fun (st : Writer × List SymbolRef) => Serves env l (fun _ => False) K st.1) (processArchives env l sched round und w) := by
  unfold processArchives
  refine Safe.mono (Q := fun (st : Writer × List SymbolRef) => Serves env l (fun _ => False) K st.1 ∧ Refer K st.2) ?_ fun _ _ h => h.1
  refine Safe.foldM' (I := fun (st : Writer × List SymbolRef) => Serves env l (fun _ => False) K st.1 ∧ Refer K st.2) _ ?_ _ ⟨h, hu⟩
  rintro ⟨p, i⟩ hm ⟨w1, und1⟩ ⟨hI, hu1⟩
  have hp : p ∈ l.archives := (hv.archives _).mem_iff.1 (List.mem_of_getElem? (List.mem_zipIdx_iff_getElem?.1 hm))
  unfold searchArchive
  refine Safe.bind (Q := fun d => env.read p = some d) (Safe.orErr (fun hn => .err) fun _ h => h) fun d _ hd => ?_
  refine Safe.bind (Q := fun e => env.parseAr d = some e) (Safe.orErr (fun hn => .err) fun _ h => h) fun ar _ ha => ?_
  refine Safe.bind (Q := fun (st : List SymbolRef × List Bytes) => ∀ m ∈ st.2, ∃ n, ar.memberOfSymbol n = some m) ?_ fun st _ hst => ?_
  · refine Safe.foldM' (I := fun (st : List SymbolRef × List Bytes) => ∀ m ∈ st.2, ∃ n, ar.memberOfSymbol n = some m) _ ?_ _ (by simp)
    intro r hr st hI'
    obtain ⟨k, hk1, hk2⟩ := hu1 r ((hv.undefAr _ _ _).mem_iff.1 hr)
    unfold searchArEntry
    refine Safe.bind (Q := fun _ => True) (Safe.of_exists (symbolName_sound hI hk1 hk2) fun _ _ => trivial) fun o _ _ => ?_
    cases o with
    | none => exact hI'
    | some name =>
      simp only []
      split
      · exact hI'
      · next m hm =>
        intro m' hm'
        simp only at hm'
        split at hm'
        · exact hI' m' hm'
        · rcases List.mem_append.1 hm' with h | h
          · exact hI' m' h
          · exact ⟨name, by rw [List.mem_singleton.1 h]; exact hm⟩
  · refine Safe.bind (Q := Serves env l (fun _ => False) K) ?_ fun w _ hw => ⟨hw, fun r hr => hu1 r (List.mem_filter.1 hr).1⟩
    refine Safe.foldM' (I := Serves env l (fun _ => False) K) _ ?_ _ hI
    intro m hm w hw
    obtain ⟨n, hn⟩ := hst m ((hv.members _ _ _).mem_iff.1 hm)
    exact linkMember_sound hc hf hp hd ha hn hw

theorem undefined_refer (hn : NamesSmall env l) (h : Serves env l R K w) {order : List Nat → List Nat} (ho : ∀ l, (order l).Perm l) :
    Serves env l R (fun k => (w.symtab.get (.named k)).isSome) w ∧ Refer (fun k => (w.symtab.get (.named k)).isSome) (w.undefinedSymbols order) := by
  obtain ⟨ops, hS⟩ := h
  refine ⟨⟨ops, hS.hist, hS.syms, hS.refs, fun k hk => hS.hist.name_isSome (hS.small hn) hk⟩, ?_⟩
  intro r hr
  obtain ⟨k, s, e, hs, _⟩ := (mem_undefinedSymbols ho).1 hr
  exact ⟨k, e, by show (w.symtab.get (.named k)).isSome = true; rw [hs]; rfl⟩

theorem resolveLoop_sound (hc : CleanFiles env l) (hf : SoundFiles env l) (hn : NamesSmall env l) {sched : LinkSched} (hv : sched.Valid) :
    ∀ (fuel round : Nat) (w : Writer), Serves env l (fun _ => False) (fun _ => False) w →
    ∀ r, resolveLoop env l sched fuel round (w.undefinedSymbols sched.symIter) w = some r → Safe Reported (fun _ => True) r
  | 0, _, _, _, r, hr => by simp [resolveLoop] at hr
  | fuel + 1, round, w, h, r, hr => by
    obtain ⟨h', hu⟩ := undefined_refer hn h hv.toSched.symIter
    have hs : Safe Reported (fun (st : Writer × Nat) => Serves env l (fun _ => False) (fun _ => False) st.1) (resolveRound env l sched round (w.undefinedSymbols sched.symIter) w) := by
      unfold resolveRound
      refine Safe.bind (findInLibs_sound hf (hv.undefLib round) hu h') fun st _ hst => ?_
      refine Safe.bind (processArchives_sound hc hf hv hst.2 hst.1) fun st _ hst => hst.mono (fun _ => id) fun _ h => h.elim
    unfold resolveLoop at hr
    cases hx : resolveRound env l sched round (w.undefinedSymbols sched.symIter) w with
    | error f =>
      rw [hx] at hr hs
      cases hr
      exact hs
    | ok x =>
      rw [hx] at hr hs
      simp only [] at hr
      split at hr
      · cases hr; exact trivial
      · exact resolveLoop_sound hc hf hn hv fuel _ _ hs r hr

theorem readAll_sound : ∀ (ps : List Path), (∀ p ∈ ps, p ∈ l.objects) →
    Safe Reported (fun r => ∀ x ∈ r, x.1 ∈ l.objects ∧ env.read x.1 = some x.2) (readAll env ps)
  | [], _ => by intro x hx; cases hx
  | p :: ps, h => by
    unfold readAll
    refine Safe.bind (Q := fun d => env.read p = some d) (Safe.orErr (fun hn => .err) fun _ h => h) fun d _ hd => ?_
    refine Safe.bind (readAll_sound ps fun q hq => h q (by simp [hq])) fun r _ hr => ?_
    intro x hx
    rcases List.mem_cons.1 hx with rfl | hx
    · exact ⟨h p (by simp), hd⟩
    · exact hr x hx

theorem loadAll_sound (hc : CleanFiles env l) (hf : SoundFiles env l) (h : Serves env l (fun _ => False) (fun _ => False) w) :
    Safe Reported (Serves env l (fun _ => False) (fun _ => False)) (loadAll env l w) := by
  unfold loadAll
  refine Safe.bind (readAll_sound _ fun _ h => h) fun r _ hr => ?_
  refine Safe.bind (Q := fun (st : List Obj × Writer) => (∀ o ∈ st.1, InputAt env l o.path o.data o.elf) ∧
    Serves env l (fun r => ∃ o ∈ st.1, ∃ i, AMap.get? o.sectionRelocations i = some r) (fun _ => False) st.2) ?_ fun st _ hst => ?_
  · refine Safe.foldM' (I := fun (st : List Obj × Writer) => (∀ o ∈ st.1, InputAt env l o.path o.data o.elf) ∧
      Serves env l (fun r => ∃ o ∈ st.1, ∃ i, AMap.get? o.sectionRelocations i = some r) (fun _ => False) st.2) _ ?_ _
      ⟨by simp, h.mono (by rintro r ⟨o, ho, _⟩; cases ho) fun _ => id⟩
    rintro ⟨p, d⟩ hm ⟨os, w1⟩ ⟨ho, hI⟩
    obtain ⟨hp, hd⟩ := hr (p, d) hm
    unfold loadObjects
    refine Safe.bind (Q := fun o => ∀ o', o = some o' → ∃ e, InputAt env l p d e ∧ o' = { path := p, data := d, elf := e }) ?_ fun o _ hoo => ?_
    · unfold toElfObject
      refine Safe.bind (Q := fun e => env.parseElf d = some e) (Safe.orErr (fun he => .err) fun _ h => h) fun e _ he => ?_
      intro o' ho'
      split at ho'
      · next hob => cases ho'; exact ⟨e, .object hp hd he hob, rfl⟩
      · cases ho'
    · cases o with
      | none => exact ⟨ho, hI⟩
      | some o' =>
        obtain ⟨e, hi, rfl⟩ := hoo o' rfl
        refine Safe.bind (processSections_sound (R := fun r => ∃ o ∈ os, ∃ i, AMap.get? o.sectionRelocations i = some r) hc hf hi
          ⟨rfl, rfl, rfl, hI.mono (by rintro r (hr | ⟨i, hi⟩); exact hr; cases hi) fun _ => id⟩) fun st _ hst => ⟨?_, ?_⟩
        · intro o hm
          rcases List.mem_append.1 hm with hm | hm
          · exact ho o hm
          · rw [List.mem_singleton.1 hm, hst.path, hst.data, hst.elf]; exact hi
        · refine hst.serves.mono ?_ fun _ => id
          rintro r ⟨o, hm, hr⟩
          rcases List.mem_append.1 hm with hm | hm
          · exact .inl ⟨o, hm, hr⟩
          · rw [List.mem_singleton.1 hm] at hr; exact .inr hr
  · have := Safe.foldM' (P := Reported) (I := Serves env l (fun r => ∃ o ∈ st.1, ∃ i, AMap.get? o.sectionRelocations i = some r) (fun _ => False))
      (f := loadSymbols) st.1 ?_ st.2 hst.2
    · exact this.mono fun _ _ h => h.mono (fun _ h => h.elim) fun _ => id
    intro o ho w hw
    unfold loadSymbols
    have hi := hst.1 o ho
    refine Safe.bind (processSymbols_sound (R := fun r => ∃ o ∈ st.1, ∃ i, AMap.get? o.sectionRelocations i = some r) hi ⟨rfl, rfl, rfl, hw.mono ?_ fun _ => id⟩) fun st' _ hst' => ?_
    · rintro r (hr | hr)
      · exact hr
      · exact ⟨o, ho, hr⟩
    · exact processRelocations_sound hf hi hst'

/-- up to the computation of the output, links of complete files do not crash -/
theorem gathered_sound (hc : CleanFiles env l) (hf : SoundFiles env l) (hn : NamesSmall env l) {sched : LinkSched} (hv : sched.Valid) {fuel : Nat} {r : M Writer}
    (h : gathered env l sched fuel = some r) : r ≠ .error .panic := by
  have key : Safe Reported (fun _ => True) r := by
    unfold gathered at h
    cases h0 : Writer.new l.options with
    | error f =>
      exfalso
      obtain ⟨x, hx⟩ := Option.isSome_iff_exists.1 hf.loader
      simp only [Writer.new, hx, unwrap, ok_bind] at h0
      cases h0
    | ok w =>
      rw [h0] at h
      simp only [] at h
      have hw : Serves env l (fun _ => False) (fun _ => False) w := ⟨[], .init h0, by rintro _ _ _ _ _ ⟨⟩, fun _ h => h.elim, fun _ h => h.elim⟩
      have hs := loadAll_sound hc hf hw
      cases h1 : loadAll env l w with
      | error f => rw [h1] at h hs; cases h; exact hs
      | ok w1 =>
        rw [h1] at h hs
        exact resolveLoop_sound hc hf hn hv _ _ _ hs r h
  intro e
  rw [e] at key
  exact key rfl

end Linker
end Dld
