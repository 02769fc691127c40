import Verif.Lemmas.HistFacts
/-! # What a history puts into each chunk -/
namespace Dld
open Writer

/-- the chunk behind a reference -/
def Writer.chunkAt (w : Writer) (r : SectionRef) : Option Chunk :=
  (w.sections.find? fun s => s.ptr == r.ptr).bind fun s => s.chunks[r.chunk]?

/-- the relocations added to a chunk -/
def relocsAt (r : SectionRef) (ops : List Op) : List (Rela × SymbolRef) :=
  ops.filterMap fun
    | .reloc rel y sr _ => if sr = r then some (rel, y) else none
    | _ => none

/-- the symbols recorded for a chunk, with repetitions -/
def notesAt (r : SectionRef) (ops : List Op) : List SymbolRef :=
  ops.filterMap fun
    | .sym s (some sr) _ _ y => if sr = r ∧ s.st_shndx ≠ SHN_ABS then some y else none
    | _ => none

/-- the symbols recorded for a chunk -/
def notedAt (r : SectionRef) (ops : List Op) : List SymbolRef :=
  (notesAt r ops).foldl (fun l y => if y ∈ l then l else l ++ [y]) []

theorem relocsAt_append (r : SectionRef) (a b : List Op) : relocsAt r (a ++ b) = relocsAt r a ++ relocsAt r b := by
  simp [relocsAt]

theorem notesAt_append (r : SectionRef) (a b : List Op) : notesAt r (a ++ b) = notesAt r a ++ notesAt r b := by
  simp [notesAt]

theorem notedAt_snoc_nil {r : SectionRef} {a : List Op} {op : Op} (h : notesAt r [op] = []) : notedAt r (a ++ [op]) = notedAt r a := by
  simp [notedAt, notesAt_append, h]

theorem mem_foldl_insert {l m : List SymbolRef} {y : SymbolRef} :
    y ∈ l.foldl (fun l y => if y ∈ l then l else l ++ [y]) m ↔ y ∈ m ∨ y ∈ l := by
  induction l generalizing m with
  | nil => simp
  | cons a l ih =>
    rw [List.foldl_cons, ih]
    by_cases ha : a ∈ m
    · simp only [ha, if_true, List.mem_cons]
      constructor
      · rintro (h | h) <;> simp [h]
      · rintro (h | rfl | h) <;> simp [*]
    · simp [ha, or_assoc]

theorem mem_notedAt {r : SectionRef} {ops : List Op} {y : SymbolRef} : y ∈ notedAt r ops ↔ y ∈ notesAt r ops := by
  simp [notedAt, mem_foldl_insert]

theorem nodup_foldl_insert {l m : List SymbolRef} (h : m.Nodup) :
    (l.foldl (fun l y => if y ∈ l then l else l ++ [y]) m).Nodup := by
  induction l generalizing m with
  | nil => exact h
  | cons a l ih =>
    rw [List.foldl_cons]
    apply ih
    by_cases ha : a ∈ m
    · simpa [ha] using h
    · simp only [ha, if_false]
      exact List.nodup_append.2 ⟨h, by simp, by rintro x hx y hy rfl; simp at hy; subst hy; exact ha hx⟩

theorem nodup_notedAt (r : SectionRef) (ops : List Op) : (notedAt r ops).Nodup := nodup_foldl_insert (by simp)

theorem mem_relocsAt {r : SectionRef} {ops : List Op} {e : Rela × SymbolRef} :
    e ∈ relocsAt r ops ↔ ∃ path, Op.reloc e.1 e.2 r path ∈ ops := by
  simp only [relocsAt, List.mem_filterMap]
  constructor
  · rintro ⟨op, hop, h⟩
    cases op <;> simp at h
    obtain ⟨rfl, rfl⟩ := h
    exact ⟨_, hop⟩
  · rintro ⟨path, h⟩
    exact ⟨_, h, by simp⟩

theorem mem_notesAt {r : SectionRef} {ops : List Op} {y : SymbolRef} :
    y ∈ notesAt r ops ↔ ∃ s n path, Op.sym s (some r) n path y ∈ ops ∧ s.st_shndx ≠ SHN_ABS := by
  simp only [notesAt, List.mem_filterMap]
  constructor
  · rintro ⟨op, hop, h⟩
    cases op with
    | sym s sec n path y' =>
      cases sec with
      | none => simp at h
      | some sr =>
        simp at h
        obtain ⟨⟨rfl, h1⟩, rfl⟩ := h
        exact ⟨_, _, _, hop, h1⟩
    | _ => simp at h
  · rintro ⟨s, n, path, h, h1⟩
    exact ⟨_, h, by simp [h1]⟩

theorem find_map_ptr {l : List Section} {p q : Nat} {f : Section → Section} (hf : ∀ s, (f s).ptr = s.ptr) :
    (l.map fun s => if s.ptr = p then f s else s).find? (fun s => s.ptr == q) =
      (l.find? fun s => s.ptr == q).map fun s => if s.ptr = p then f s else s := by
  rw [List.find?_map]
  congr 2
  funext s
  simp only [Function.comp]
  split <;> simp [hf]

theorem modChunk_at {w w' : Writer} {r : SectionRef} {f : Chunk → Chunk} (h : w.modChunk r f = .ok w') (r' : SectionRef) :
    w'.chunkAt r' = (if r' = r then (w.chunkAt r).map f else w.chunkAt r') ∧ (w.chunkAt r).isSome ∧
    w'.sections.map (·.ptr) = w.sections.map (·.ptr) ∧ w'.shstr = w.shstr := by
  simp only [modChunk, bind_ok, sec, unwrap_ok] at h
  obtain ⟨s, hs, h⟩ := h
  split at h
  · next hlt =>
    cases h
    refine ⟨?_, ?_, ?_, rfl⟩
    · unfold chunkAt modSec
      simp only
      rw [find_map_ptr (f := fun s => { s with chunks := s.chunks.modify r.chunk f }) (fun _ => rfl)]
      by_cases hp : r'.ptr = r.ptr
      · rw [hp, hs]
        have hsp : s.ptr = r.ptr := by simpa using List.find?_some hs
        simp only [Option.map_some, Option.bind_some, hsp, if_true, List.getElem?_modify]
        by_cases hc : r.chunk = r'.chunk
        · have : r' = r := by cases r; cases r'; simp_all
          subst this
          cases hx : s.chunks[r'.chunk]? <;> simp
        · have : r' ≠ r := fun e => hc (by rw [e])
          rw [if_neg this]
          cases hx : s.chunks[r'.chunk]? <;> simp [hc]
      · have : r' ≠ r := fun e => hp (by rw [e])
        rw [if_neg this]
        cases hx : w.sections.find? (fun s => s.ptr == r'.ptr) with
        | none => rfl
        | some t =>
          have htp : t.ptr = r'.ptr := by simpa using List.find?_some hx
          simp only [Option.map_some, Option.bind_some, htp, hp, if_false]
    · unfold chunkAt; rw [hs]; simp [hlt]
    · unfold modSec
      simp only [List.map_map]
      apply List.map_congr_left
      intro t _
      simp only [Function.comp]; split <;> rfl
  · cases h

theorem find_set {l : List Section} (hn : (l.map (·.ptr)).Nodup) {k q : Nat} {s s' : Section} (hk : l[k]? = some s) (hp : s'.ptr = s.ptr) :
    (l.set k s').find? (fun s => s.ptr == q) = if q = s.ptr then some s' else l.find? fun s => s.ptr == q := by
  induction l generalizing k with
  | nil => simp at hk
  | cons a l ih =>
    simp only [List.map_cons, List.nodup_cons] at hn
    cases k with
    | zero =>
      simp at hk; subst hk
      simp only [List.set_cons_zero, List.find?_cons, hp]
      by_cases hq : q = a.ptr
      · simp [hq]
      · have : (a.ptr == q) = false := by simp; exact fun e => hq e.symm
        simp [this, hq]
    | succ k =>
      simp at hk
      simp only [List.set_cons_succ, List.find?_cons]
      by_cases ha : a.ptr = q
      · have : q ≠ s.ptr := by
          intro e
          exact hn.1 (ha ▸ e ▸ List.mem_map.2 ⟨s, List.mem_of_getElem? hk, rfl⟩)
        simp [ha, this]
      · have : (a.ptr == q) = false := by simpa using ha
        rw [this]; exact ih hn.2 hk

theorem eq_of_ptr {l : List Section} (hn : (l.map (·.ptr)).Nodup) {s t : Section} (hs : s ∈ l) (ht : t ∈ l) (h : s.ptr = t.ptr) : s = t := by
  induction l with
  | nil => cases hs
  | cons a l ih =>
    simp only [List.map_cons, List.nodup_cons] at hn
    rcases List.mem_cons.1 hs with rfl | hs' <;> rcases List.mem_cons.1 ht with rfl | ht'
    · rfl
    · exact absurd (List.mem_map.2 ⟨t, ht', h.symm⟩) hn.1
    · exact absurd (List.mem_map.2 ⟨s, hs', h⟩) hn.1
    · exact ih hn.2 hs' ht'

/-- What the calls have put into the chunks. -/
structure CInv (ops : List Op) (w : Writer) : Prop where
  chunk : ∀ r c, w.chunkAt r = some c → c.address = none ∧ c.relocations = relocsAt r ops ∧ c.symbols = notedAt r ops
  absent : ∀ r, w.chunkAt r = none → relocsAt r ops = [] ∧ notedAt r ops = []
  push : ∀ n sh d r, Op.push n sh d r ∈ ops → (∃ c, w.chunkAt r = some c ∧ ∀ b, d = some b → c.data = b) ∧
    ∃ i : Nat, (w.shstr.names.map (·.1))[i]? = some n ∧ (w.sections.map (·.ptr))[i]? = some r.ptr

theorem notesAt_eq_nil {r : SectionRef} {op : Op} (h : ∀ s n p y, op ≠ .sym s (some r) n p y) : notesAt r [op] = [] := by
  cases hn : notesAt r [op] with
  | nil => rfl
  | cons y l =>
    have : y ∈ notesAt r [op] := by rw [hn]; simp
    obtain ⟨s, n, p, h1, _⟩ := mem_notesAt.1 this
    simp only [List.mem_singleton] at h1
    exact absurd h1.symm (h _ _ _ _)

theorem relocsAt_eq_nil {r : SectionRef} {op : Op} (h : ∀ rel y p, op ≠ .reloc rel y r p) : relocsAt r [op] = [] := by
  cases hn : relocsAt r [op] with
  | nil => rfl
  | cons y l =>
    have : y ∈ relocsAt r [op] := by rw [hn]; simp
    obtain ⟨p, h1⟩ := mem_relocsAt.1 this
    simp only [List.mem_singleton] at h1
    exact absurd h1.symm (h _ _ _)

/-- a call that touches no chunk -/
theorem CInv.frame {ops : List Op} {w w' : Writer} {op : Op} (hI : CInv ops w) (hs : w'.sections = w.sections)
    (hn : w'.shstr = w.shstr) (h1 : ∀ r, relocsAt r [op] = []) (h2 : ∀ r, notesAt r [op] = []) (h3 : ∀ n sh d r, op ≠ .push n sh d r) :
    CInv (ops ++ [op]) w' := by
  have hc : ∀ r, w'.chunkAt r = w.chunkAt r := fun r => by unfold chunkAt; rw [hs]
  refine ⟨?_, ?_, ?_⟩
  · intro r c h
    rw [hc] at h
    rw [relocsAt_append, h1, List.append_nil, notedAt_snoc_nil (h2 r)]
    exact hI.chunk r c h
  · intro r h
    rw [hc] at h
    rw [relocsAt_append, h1, List.append_nil, notedAt_snoc_nil (h2 r)]
    exact hI.absent r h
  · intro n sh d r h
    simp only [List.mem_append, List.mem_singleton] at h
    rcases h with h | h
    · rw [hc, hn, hs]; exact hI.push n sh d r h
    · exact absurd h.symm (h3 n sh d r)

/-- a call that modifies one chunk -/
theorem CInv.mod {ops : List Op} {w w' : Writer} {op : Op} {r : SectionRef} {f : Chunk → Chunk} (hI : CInv ops w)
    (h : w.modChunk r f = .ok w') (hf : ∀ c, (f c).address = c.address ∧ (f c).data = c.data)
    (h1 : ∀ r', r' ≠ r → relocsAt r' [op] = [] ∧ notesAt r' [op] = [])
    (h2 : ∀ c, c.relocations = relocsAt r ops → c.symbols = notedAt r ops →
      (f c).relocations = relocsAt r (ops ++ [op]) ∧ (f c).symbols = notedAt r (ops ++ [op]))
    (h3 : ∀ n sh d r, op ≠ .push n sh d r) : CInv (ops ++ [op]) w' := by
  obtain ⟨_, hsome, hp, hn⟩ := modChunk_at h r
  obtain ⟨c0, hc0⟩ := Option.isSome_iff_exists.1 hsome
  refine ⟨?_, ?_, ?_⟩
  · intro r' c hc
    rw [(modChunk_at h r').1] at hc
    by_cases hr : r' = r
    · rw [if_pos hr, hc0] at hc
      cases hc
      subst hr
      obtain ⟨e1, e2, e3⟩ := hI.chunk _ _ hc0
      exact ⟨(hf c0).1.trans e1, h2 c0 e2 e3⟩
    · rw [if_neg hr] at hc
      rw [relocsAt_append, (h1 r' hr).1, List.append_nil, notedAt_snoc_nil (h1 r' hr).2]
      exact hI.chunk r' c hc
  · intro r' hc
    rw [(modChunk_at h r').1] at hc
    by_cases hr : r' = r
    · rw [if_pos hr, hc0] at hc; cases hc
    · rw [if_neg hr] at hc
      rw [relocsAt_append, (h1 r' hr).1, List.append_nil, notedAt_snoc_nil (h1 r' hr).2]
      exact hI.absent r' hc
  · intro n sh d r' h'
    simp only [List.mem_append, List.mem_singleton] at h'
    rcases h' with h' | h'
    · rw [hp, hn]
      obtain ⟨⟨c, hc, hd⟩, hi⟩ := hI.push n sh d r' h'
      refine ⟨?_, hi⟩
      rw [(modChunk_at h r').1]
      by_cases hr : r' = r
      · rw [if_pos hr, ← hr, hc]
        exact ⟨f c, rfl, fun b hb => ((hf c).2).trans (hd b hb)⟩
      · rw [if_neg hr]; exact ⟨c, hc, hd⟩
    · exact absurd h'.symm (h3 n sh d r')

theorem Holds.keys {t : StringTable} {ns : List Name} (h : StringTable.Holds t ns) : t.names.map (·.1) = ns := by
  rw [h.names]
  have : ∀ (ns : List Name) (i o : Nat), (StringTable.lay i o ns).map (·.1) = ns := by
    intro ns
    induction ns with
    | nil => intro _ _; rfl
    | cons n ns ih => intro i o; simp [StringTable.lay, ih]
  exact this ns 0 0

theorem CInv.pushSection {opts : Options} {w0 w w' : Writer} {ops : List Op} {pn : List Name} (hW : WInv opts w0 ops w pn)
    (h0 : Writer.new opts = .ok w0) (hI : CInv ops w) {name : Name} {sh : SectionHeader} {data : Option Bytes} {r : SectionRef}
    (h : w.pushSection name sh data = .ok (w', r)) : CInv (ops ++ [.push name sh data r]) w' := by
  have hnd := hW.ptrs_nodup h0
  have hr0 : ∀ r', relocsAt r' [Op.push name sh data r] = [] := fun r' => relocsAt_eq_nil (by intros; simp)
  have hn0 : ∀ r', notesAt r' [Op.push name sh data r] = [] := fun r' => notesAt_eq_nil (by intros; simp)
  -- enough to know the new chunk
  have main : (∀ r', w'.chunkAt r' = w.chunkAt r' ∨ (w.chunkAt r' = none ∧ ∃ d, w'.chunkAt r' = some { data := d })) →
      ((∃ c, w'.chunkAt r = some c ∧ ∀ b, data = some b → c.data = b) ∧
        ∃ i : Nat, (w'.shstr.names.map (·.1))[i]? = some name ∧ (w'.sections.map (·.ptr))[i]? = some r.ptr) →
      (∀ (i : Nat) (n : Name), (w.shstr.names.map (·.1))[i]? = some n → (w'.shstr.names.map (·.1))[i]? = some n) →
      (∀ (i : Nat) (p : Nat), (w.sections.map (·.ptr))[i]? = some p → (w'.sections.map (·.ptr))[i]? = some p) →
      CInv (ops ++ [.push name sh data r]) w' := by
    intro hc hp hnames hptrs
    refine ⟨?_, ?_, ?_⟩
    · intro r' c h
      rw [relocsAt_append, hr0, List.append_nil, notedAt_snoc_nil (hn0 r')]
      rcases hc r' with h1 | ⟨h1, d, h2⟩
      · rw [h1] at h; exact hI.chunk r' c h
      · rw [h2] at h
        cases h
        obtain ⟨e1, e2⟩ := hI.absent r' h1
        exact ⟨rfl, e1.symm, e2.symm⟩
    · intro r' h
      rw [relocsAt_append, hr0, List.append_nil, notedAt_snoc_nil (hn0 r')]
      rcases hc r' with h1 | ⟨h1, d, h2⟩
      · rw [h1] at h; exact hI.absent r' h
      · rw [h2] at h; cases h
    · intro n sh' d r' hm
      simp only [List.mem_append, List.mem_singleton] at hm
      rcases hm with hm | hm
      · obtain ⟨⟨c, hcc, hd⟩, i, hi1, hi2⟩ := hI.push n sh' d r' hm
        refine ⟨?_, i, hnames i n hi1, hptrs i _ hi2⟩
        rcases hc r' with h1 | ⟨h1, _⟩
        · exact ⟨c, by rw [h1]; exact hcc, hd⟩
        · rw [hcc] at h1; cases h1
      · cases hm; exact hp
  by_cases hmem : name ∈ tabNames opts.hashStyle ++ pn
  · have he := hW.names.getOrCreate_mem hmem
    simp only [Writer.pushSection, he] at h
    have hidx := List.idxOf_lt_length_iff.2 hmem
    have hkn : (w.shstr.names.map (·.1))[(tabNames opts.hashStyle ++ pn).idxOf name]? = some name := by
      rw [Holds.keys hW.names, List.getElem?_eq_getElem (List.idxOf_lt_length_iff.2 hmem), List.getElem_idxOf]
    generalize (tabNames opts.hashStyle ++ pn).idxOf name = k at h he hidx hkn
    cases hs : w.sections[k]? with
    | none => rw [hs] at h; simp at h
    | some s =>
      rw [hs] at h
      simp only at h
      have hfs : w.sections.find? (fun t => t.ptr == s.ptr) = some s := by
        have hm := List.mem_of_getElem? hs
        cases hf : w.sections.find? (fun t => t.ptr == s.ptr) with
        | none => rw [List.find?_eq_none] at hf; simpa using hf s hm
        | some t =>
          have h1 := List.mem_of_find?_eq_some hf
          have h2 : t.ptr = s.ptr := by simpa using List.find?_some hf
          rw [eq_of_ptr hnd h1 hm h2]
      have hptrs : ∀ s' : Section, s'.ptr = s.ptr → (w.sections.set k s').map (·.ptr) = w.sections.map (·.ptr) := by
        intro s' hp
        rw [List.map_set, hp]
        apply List.ext_getElem?
        intro j
        rw [List.getElem?_set]
        by_cases hj : k = j
        · subst hj
          have hlt := (List.getElem?_eq_some_iff.1 hs).1
          have hlt' : k < (w.sections.map (·.ptr)).length := by simpa using hlt
          simp only [if_pos hlt', if_true]
          simp [hs]
        · simp [hj]
      have hkp : (w.sections.map (·.ptr))[k]? = some s.ptr := by simp [hs]
      cases data with
      | some d =>
        simp only [Bool.false_eq_true, if_false, Except.ok.injEq, Prod.mk.injEq] at h
        obtain ⟨rfl, rfl⟩ := h
        refine main ?_ ⟨⟨{ data := d }, ?_, fun b hb => by cases hb; rfl⟩, k, hkn, ?_⟩ (fun i n hi => hi) ?_
        · intro r'
          unfold chunkAt
          simp only
          rw [find_set (s' := Section.addChunk { s with sh := { s.sh with sh_size := s.sh.sh_size + sh.sh_size, sh_addralign := max s.sh.sh_addralign sh.sh_addralign } } d) hnd hs rfl]
          by_cases hq : r'.ptr = s.ptr
          · rw [if_pos hq, hq, hfs]
            simp only [Option.bind_some, Section.addChunk]
            by_cases hlt : r'.chunk < s.chunks.length
            · left; rw [List.getElem?_append_left hlt]
            · by_cases heq : r'.chunk = s.chunks.length
              · right
                refine ⟨List.getElem?_eq_none (by omega), d, ?_⟩
                rw [heq]; simp
              · left
                rw [List.getElem?_eq_none (by simp; omega), List.getElem?_eq_none (by omega)]
          · rw [if_neg hq]; exact .inl rfl
        · unfold chunkAt
          simp only
          rw [find_set (s' := Section.addChunk { s with sh := { s.sh with sh_size := s.sh.sh_size + sh.sh_size, sh_addralign := max s.sh.sh_addralign sh.sh_addralign } } d) hnd hs rfl, if_pos rfl]
          simp [Section.addChunk]
        · simp only; rw [hptrs]; · exact hkp
          · rfl
        · intro i p hi; simp only; rw [hptrs]; · exact hi
          · rfl
      | none =>
        rw [if_neg Bool.false_ne_true] at h
        simp only at h
        split at h
        · cases h
        · next hz =>
          simp only [Except.ok.injEq, Prod.mk.injEq] at h
          obtain ⟨rfl, rfl⟩ := h
          have hsame : ∀ r', chunkAt { w with sections := w.sections.set k { s with sh := { s.sh with sh_size := s.sh.sh_size + sh.sh_size, sh_addralign := max s.sh.sh_addralign sh.sh_addralign } } } r' = w.chunkAt r' := by
            intro r'
            unfold chunkAt
            simp only
            rw [find_set (s' := { s with sh := { s.sh with sh_size := s.sh.sh_size + sh.sh_size, sh_addralign := max s.sh.sh_addralign sh.sh_addralign } }) hnd hs rfl]
            by_cases hq : r'.ptr = s.ptr
            · rw [if_pos hq, hq, hfs]; rfl
            · rw [if_neg hq]
          refine main (fun r' => .inl (hsame r')) ⟨?_, k, hkn, ?_⟩ (fun i n hi => hi) ?_
          · rw [hsame]
            unfold chunkAt
            simp only
            rw [hfs]
            simp only [Option.bind_some]
            rw [List.getElem?_eq_getElem (by omega)]
            exact ⟨_, rfl, fun b hb => by cases hb⟩
          · simp only; rw [hptrs]; · exact hkp
            · rfl
          · intro i p hi; simp only; rw [hptrs]; · exact hi
            · rfl
  · have he := hW.names.getOrCreate_new hmem
    have hholds := hW.names.getOrCreate name
    simp only [StringTable.intern, hmem, if_false] at hholds
    cases hg : w.shstr.getOrCreate name with
    | mk e t =>
    rw [hg] at he hholds
    simp only at he hholds
    simp only [Writer.pushSection, hg, he, if_true, Except.ok.injEq, Prod.mk.injEq] at h
    obtain ⟨rfl, rfl⟩ := h
    have hfresh : ∀ s ∈ w.sections, s.ptr ≠ w.nextPtr := by
      intro s hs e
      have : s.ptr ∈ w.sections.map (·.ptr) := List.mem_map_of_mem hs
      rw [hW.ptrs h0, List.mem_append, List.mem_range'] at this
      rw [hW.next] at e
      rcases this with h1 | ⟨i, h1, h2⟩
      · have := (baseIdents_ptr opts.hashStyle).2 _ h1; omega
      · omega
    have hlen : w.sections.length = (tabNames opts.hashStyle ++ pn).length := hW.len
    have hk1 := Holds.keys hholds
    have hk0 := Holds.keys hW.names
    have hnone : w.sections.find? (fun s => s.ptr == w.nextPtr) = none := by
      rw [List.find?_eq_none]; intro s hs; simpa using hfresh s hs
    refine main ?_ ⟨⟨{ data := data.getD [] }, ?_, fun b hb => by cases hb; rfl⟩, w.sections.length, ?_, ?_⟩ ?_ ?_
    · intro r'
      unfold chunkAt
      simp only [List.find?_append]
      cases hf : w.sections.find? (fun s => s.ptr == r'.ptr) with
      | some s => left; rfl
      | none =>
        by_cases hp : w.nextPtr = r'.ptr
        · simp only [Option.none_or, List.find?_cons, hp, beq_self_eq_true, Option.bind_some]
          by_cases hc : r'.chunk = 0
          · right; exact ⟨rfl, _, by rw [hc]; rfl⟩
          · left; rw [List.getElem?_eq_none (by simp; omega)]; rfl
        · left
          have : (w.nextPtr == r'.ptr) = false := by simpa using hp
          simp [List.find?_cons, this]
    · unfold chunkAt
      simp only [List.find?_append, hnone]
      simp
    · simp only; rw [hk1, hlen]; simp
    · simp
    · intro i n hi
      simp only
      rw [hk1]; rw [hk0] at hi
      rw [List.getElem?_append_left (List.getElem?_eq_some_iff.1 hi).1]; exact hi
    · intro i p hi
      simp only [List.map_append]
      rw [List.getElem?_append_left (List.getElem?_eq_some_iff.1 hi).1]; exact hi

theorem new_address {opts : Options} {w0 : Writer} (h0 : Writer.new opts = .ok w0) :
    ∀ b ∈ w0.sections, ∀ c ∈ b.chunks, c.address = none ∧ c.relocations = [] ∧ c.symbols = [] := by
  obtain ⟨_, _, h2⟩ := new_idents opts w0 h0
  intro b hb c hc
  have : b.chunks ∈ (w0.sections.map fun s => (s.sh.sh_size, s.chunks)).map (·.2) := by
    rw [List.map_map]; exact List.mem_map.2 ⟨b, hb, rfl⟩
  rw [h2, List.map_map] at this
  obtain ⟨i, _, he⟩ := List.mem_map.1 this
  simp only [Function.comp] at he
  rw [← he] at hc
  split at hc
  · simp at hc; subst hc; exact ⟨rfl, rfl, rfl⟩
  · cases hc

theorem Hist.cinv {opts : Options} {ops : List Op} {w : Writer} (h : Hist opts ops w) : CInv ops w := by
  induction h with
  | init h =>
    refine ⟨?_, fun _ _ => ⟨rfl, rfl⟩, fun n sh d r hm => by cases hm⟩
    intro r c hc
    unfold chunkAt at hc
    cases hf : List.find? (fun (s : Section) => s.ptr == r.ptr) _ with
    | none => rw [hf] at hc; cases hc
    | some s =>
      rw [hf] at hc
      exact new_address h s (List.mem_of_find?_eq_some hf) c (List.mem_of_getElem? hc)
  | @step ops op w w' hh hs ih =>
    obtain ⟨w0, pn, h0, hW⟩ := hh.winv
    cases hs with
    | push h => exact CInv.pushSection hW h0 ih h
    | @sym _ s sec name path r h =>
      unfold Writer.addSymbol at h
      simp only at h
      split at h
      · cases h
      · next symtab r' _ =>
        simp only [bind_ok] at h
        obtain ⟨w1, h1, h2⟩ := h
        cases h2
        unfold Writer.noteSymbol at h1
        have ih' : CInv ops { w with symstr := (w.symstr.getOrCreate name).2, symtab := symtab } := ⟨ih.chunk, ih.absent, ih.push⟩
        cases sec with
        | none =>
          simp only at h1
          cases h1
          exact ih'.frame rfl rfl (fun r => relocsAt_eq_nil (by intros; simp)) (fun r => notesAt_eq_nil (by intros; simp)) (by intros; simp)
        | some sr =>
          simp only at h1
          by_cases habs : s.st_shndx ≠ SHN_ABS
          · rw [if_pos habs] at h1
            refine ih'.mod h1 ?_ ?_ ?_ (by intros; simp)
            · intro c; unfold Chunk.addSymbol; split <;> exact ⟨rfl, rfl⟩
            · intro r' hr'
              refine ⟨relocsAt_eq_nil (by intros; simp), notesAt_eq_nil ?_⟩
              intro _ _ _ _ e
              simp only [Op.sym.injEq, Option.some.injEq] at e
              exact hr' e.2.1.symm
            · intro c h1 h2
              have e1 : notesAt sr [Op.sym s (some sr) name path r] = [r] := by simp [notesAt, habs]
              have e2 : notedAt sr (ops ++ [Op.sym s (some sr) name path r]) =
                  if r ∈ notedAt sr ops then notedAt sr ops else notedAt sr ops ++ [r] := by
                simp only [notedAt, notesAt_append, e1, List.foldl_append, List.foldl_cons, List.foldl_nil]
                rfl
              rw [relocsAt_append, relocsAt_eq_nil (by intros; simp), List.append_nil, e2]
              unfold Chunk.addSymbol
              rw [h2]
              split
              · exact ⟨h1, h2⟩
              · exact ⟨h1, rfl⟩
          · rw [if_neg habs] at h1
            cases h1
            refine ih'.frame rfl rfl (fun r => relocsAt_eq_nil (by intros; simp)) (fun r => ?_) (by intros; simp)
            simp only [Classical.not_not] at habs
            simp [notesAt, habs]
    | dynsym h =>
      unfold Writer.addDynSymbol at h
      simp only at h
      split at h
      · cases h
      · split at h
        · cases h
          exact ih.frame rfl rfl (fun r => relocsAt_eq_nil (by intros; simp)) (fun r => notesAt_eq_nil (by intros; simp)) (by intros; simp)
        · split at h
          · cases h
          · cases h
            exact ih.frame rfl rfl (fun r => relocsAt_eq_nil (by intros; simp)) (fun r => notesAt_eq_nil (by intros; simp)) (by intros; simp)
    | @reloc _ rel y sr path h =>
      unfold Writer.addRelocation at h
      simp only at h
      split at h
      · cases h
      · refine ih.mod h (fun c => ⟨rfl, rfl⟩) ?_ ?_ (by intros; simp)
        · intro r' hr'
          refine ⟨relocsAt_eq_nil ?_, notesAt_eq_nil (by intros; simp)⟩
          intro _ _ _ e
          simp only [Op.reloc.injEq] at e
          exact hr' e.2.2.1.symm
        · intro c h1 h2
          have e1 : relocsAt sr [Op.reloc rel y sr path] = [(rel, y)] := by simp [relocsAt]
          rw [relocsAt_append, e1, notedAt_snoc_nil (notesAt_eq_nil (by intros; simp))]
          exact ⟨by rw [← h1]; rfl, h2⟩
    | needed =>
      exact ih.frame rfl rfl (fun r => relocsAt_eq_nil (by intros; simp)) (fun r => notesAt_eq_nil (by intros; simp)) (by intros; simp)

end Dld
