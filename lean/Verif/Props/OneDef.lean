import Verif.Spec.OneDef
import Verif.Props.Symbols
import Verif.Props.Errors
import Verif.Lemmas.Sound2
import Verif.Lemmas.Files
import Verif.Lemmas.DemoSound
/-! # No two linked files define one name: C135 -/
namespace Dld
open Writer Spec

variable {env : Env} {l : Linker} {sched : LinkSched} {fuel : Nat} {loaded : List Loaded} {log : List Call} {w : Writer} {N : List Call → Name → Prop}

theorem two_of_mem {α : Type _} {a b : α} {l : List α} (ha : a ∈ l) (hb : b ∈ l) (h : a ≠ b) :
    (∃ x y z, l = x ++ a :: y ++ b :: z) ∨ ∃ x y z, l = x ++ b :: y ++ a :: z := by
  obtain ⟨x, y, rfl⟩ := List.append_of_mem ha
  rcases List.mem_append.1 hb with hb | hb
  · obtain ⟨p, q, rfl⟩ := List.append_of_mem hb
    exact .inr ⟨p, q, y, by simp⟩
  · rcases List.mem_cons.1 hb with rfl | hb
    · exact absurd rfl h
    · obtain ⟨p, q, rfl⟩ := List.append_of_mem hb
      exact .inl ⟨x, p, q, by simp⟩

theorem Calls.one_strong (h : Calls env l N loaded log) (hh : Hist l.options (opsOf log) w) (hs : NamesSmall env l) {x y : Loaded} (hx : x ∈ loaded)
    (hy : y ∈ loaded) {j k : Nat} {n : Name} (h1 : Strong x j n) (h2 : Strong y k n)
    (hb : ∀ z ∈ loaded, ∀ i t, SymbolOf z i t n → t.st_info / 16 ≤ 2) : x = y ∧ j = k := by
  obtain ⟨s, hs1, hg1, hd1⟩ := h1
  obtain ⟨t, hs2, hg2, hd2⟩ := h2
  obtain ⟨A, B, n1, sec1, r1, e1, hn1, _⟩ := h.symbol_after hx hs1.1
  obtain ⟨C, D, n2, sec2, r2, e2, hn2, _⟩ := h.symbol_after hy hs2.1
  cases hs1.2.1.symm.trans hn1
  cases hs2.2.1.symm.trans hn2
  by_cases hc : (⟨x.source, .symbol j, .sym s sec1 n x.path r1⟩ : Call) = ⟨y.source, .symbol k, .sym t sec2 n y.path r2⟩
  · injection hc with hc1 hc2
    injection hc2 with hc2
    exact ⟨h.unique hx hy hc1, hc2⟩
  exfalso
  obtain ⟨ns, nd, T⟩ := hh.tableFacts
  have hlt := h.symstr_small hh hs
  have hm1 : (⟨x.source, .symbol j, .sym s sec1 n x.path r1⟩ : Call) ∈ log := by rw [e1]; simp
  have hm2 : (⟨y.source, .symbol k, .sym t sec2 n y.path r2⟩ : Call) ∈ log := by rw [e2]; simp
  have hadd := T.inv.sym
  have hmem : ∀ {s : Sym} {sec : Option SectionRef} {m : Name} {p : Path} {r : SymbolRef}, Op.sym s sec m p r ∈ opsOf log → m ∈ ns :=
    fun hop => (T.symNames _).2 (.inr (mem_symNames hop))
  have hns : n ∈ ns := hmem (by rw [e1, opsOf_append]; exact List.mem_append_right _ List.mem_cons_self)
  have hall : ∀ c ∈ symAdds ns (opsOf log), c.mentions (u32 (nameOff ns n)) → c.stdBind := by
    intro c hc' hm
    obtain ⟨s', sec', m, path', r', hop', rfl⟩ := mem_symAdds hc'
    have : m = n := u32_nameOff_inj T.symstr hlt (hmem hop') hns hm.2
    subst this
    obtain ⟨z, hz, i, hzi, _⟩ := h.mention_call (a := log) (b := []) (by simp) ⟨⟨path', r', hop'⟩, hm.1⟩
    have := hb z hz i s' hzi
    show s'.st_info / 16 = 0 ∨ s'.st_info / 16 = 1 ∨ s'.st_info / 16 = 2
    omega
  have strong : ∀ {s : Sym} {p : Path}, s.st_info % 16 ≠ 3 → s.st_info / 16 = 1 → s.st_shndx ≠ 0 →
      Add.strongDef (u32 (nameOff ns n)) { sym := { s with st_name := u32 (nameOff ns n) }, hash := elfHash n, gnuHash := elfGnuHash n, ref := p } :=
    fun a b c => ⟨a, rfl, b, c⟩
  rcases two_of_mem hm1 hm2 hc with ⟨P, Q, R, el⟩ | ⟨P, Q, R, el⟩ <;>
  · rw [el] at hadd hall
    simp only [opsOf_append, List.append_assoc, List.cons_append] at hadd hall
    rw [show ∀ (c : Call) (l : List Call), opsOf (c :: l) = c.op :: opsOf l from fun _ _ => rfl, opsOf_append,
      show ∀ (c : Call) (l : List Call), opsOf (c :: l) = c.op :: opsOf l from fun _ _ => rfl] at hadd hall
    simp only [symAdds_append, symAdds_cons] at hadd hall
    first
    | obtain ⟨p, hp⟩ := C07_two_strong_definitions_rejected false _ (symAdds ns (opsOf Q)) (symAdds ns (opsOf R)) _ _ _ (strong hs1.2.2 hg1 hd1)
        (strong hs2.2.2 hg2 hd2) (fun c hc' hm => hall c (by
          rcases List.mem_append.1 hc' with h | h
          · exact List.mem_append_left _ h
          · exact List.mem_append_right _ (by
              rcases List.mem_cons.1 h with h | h
              · rw [h]; exact List.mem_cons_self
              · exact List.mem_cons_of_mem _ (List.mem_append_left _ h))) hm)
      rw [List.append_assoc, List.cons_append, hadd] at hp
      cases hp
    | obtain ⟨p, hp⟩ := C07_two_strong_definitions_rejected false _ (symAdds ns (opsOf Q)) (symAdds ns (opsOf R)) _ _ _ (strong hs2.2.2 hg2 hd2)
        (strong hs1.2.2 hg1 hd1) (fun c hc' hm => hall c (by
          rcases List.mem_append.1 hc' with h | h
          · exact List.mem_append_left _ h
          · exact List.mem_append_right _ (by
              rcases List.mem_cons.1 h with h | h
              · rw [h]; exact List.mem_cons_self
              · exact List.mem_cons_of_mem _ (List.mem_append_left _ h))) hm)
      rw [List.append_assoc, List.cons_append, hadd] at hp
      cases hp

namespace Linker

/-- **C135, what holds.** In a successful link, no name whose mentions are all local, global or weak has two global definitions: not in two of the linked
files, whether objects or members of archives, and not in one. Missing from the full claim: names that some file mentions with another binding
(`C135_one_definition_violated`). -/
theorem C135_one_definition_partial (hv : sched.Valid) (hs : NamesSmall env l) {file : Bytes} (h : link env l sched fuel = some (.ok file)) :
    ∃ loaded log, Calls env l (NeededIn env l) loaded log ∧
      ∀ n, (∀ z ∈ loaded, ∀ i t, SymbolOf z i t n → t.st_info / 16 ≤ 2) → ∀ x ∈ loaded, ∀ y ∈ loaded, ∀ j k, Strong x j n → Strong y k n → x = y ∧ j = k := by
  obtain ⟨log, loaded, w, w', secs, _, hc, hr, _⟩ := link_ok hv h
  exact ⟨loaded, log, calls_spec hv hc hr.hist (hc.symstr_small hr.hist hs), fun n hb x hx y hy j k h1 h2 => hc.one_strong hr.hist hs hx hy h1 h2 hb⟩

/-- **C135, for the objects of the command line.** If two of them define a name globally, or one that does is given twice, there is no output. -/
theorem C135_objects_partial (hv : sched.Valid) (hs : NamesSmall env l) {i k : Nat} {p q : Path} {n : Name} (hi : l.objects[i]? = some p)
    (hk : l.objects[k]? = some q) (hik : i ≠ k) (hp : DefinesGlobally env p n) (hq : DefinesGlobally env q n) (hb : PlainBinds env l n) (file : Bytes) :
    link env l sched fuel ≠ some (.ok file) := by
  intro h
  obtain ⟨loaded, log, hc, hone⟩ := C135_one_definition_partial hv hs h
  obtain ⟨ms, e, _⟩ := hc.objects
  have find : ∀ {i : Nat} {p : Path}, l.objects[i]? = some p → DefinesGlobally env p n → ∃ x ∈ loaded, x.source = .object i ∧ ∃ j, Strong x j n := by
    rintro i p hi ⟨d, el, s, h1, h2, h3, h4, h5, h6, h7, h8⟩
    obtain ⟨j, hj⟩ := List.getElem?_of_mem h4
    refine ⟨⟨.object i, p, d, el⟩, ?_, rfl, j, s, ⟨hj, h5, h6⟩, h7, h8⟩
    rw [e]
    exact List.mem_append_left _ (mem_objectsOf.2 ⟨i, p, hi, rfl, rfl, h1, h2, h3⟩)
  obtain ⟨x, hx, hxi, j, hj⟩ := find hi hp
  obtain ⟨y, hy, hyk, j', hj'⟩ := find hk hq
  obtain ⟨rfl, _⟩ := hone n (fun z hz i t ht => hb _ (hc.input hz) t (List.mem_of_getElem? ht.1) ht.2.1) x hx y hy j j' hj hj'
  rw [hxi] at hyk
  injection hyk with h
  exact hik h

end Linker

/-! ## Concrete cases -/

/-- an object file with `_start` and a unique `f` (binding 10, as of a static variable of a template) -/
def onlyElf : ElfFile := { twiceElf with
  syms := [{}, { demoSym STT_FUNC 1 0 4 with st_name := 1 }, { demoSym STT_FUNC 1 0 4 with st_name := 8, st_info := 161 }]
  symName := AMap.get? [(0, []), (1, b!"_start"), (8, b!"f")] }

/-- an object file with a global function `f` -/
def oneElf : ElfFile := { twiceElf with symName := AMap.get? [(0, []), (1, b!"f")] }

def onlyPath : Path := ⟨b!"only.o", some b!"only.o"⟩
def onePath : Path := ⟨b!"one.o", some b!"one.o"⟩
def otherPath : Path := ⟨b!"other.o", some b!"other.o"⟩

/-- `only.o` with the given contents, and two files that define `f` -/
def onlyEnv (e : ElfFile) : Env :=
  tableEnv [(onlyPath, List.replicate 4 0x90), (onePath, List.replicate 4 0xcc), (otherPath, List.replicate 4 0xcc)]
    [(List.replicate 4 0x90, e), (List.replicate 4 0xcc, oneElf)] []

def onlyLinker : Linker := { options := Options.default, objects := [onlyPath, onePath, otherPath], archives := [] }

/-- both files define `f` globally -/
theorem one_defines {e : ElfFile} {p : Path} (h : p ∈ [onePath, otherPath]) : DefinesGlobally (onlyEnv e) p b!"f" := by
  refine ⟨List.replicate 4 0xcc, oneElf, { demoSym STT_FUNC 1 0 4 with st_name := 1 }, ?_, rfl, rfl, by decide, rfl, by decide, by decide, by decide⟩
  simp only [List.mem_cons, List.not_mem_nil, or_false] at h
  rcases h with rfl | rfl <;> rfl

namespace Linker

/-- **C135** is violated: if an earlier file mentions the name with the binding of unique symbols, two files with global definitions are linked without
an error. -/
theorem C135_one_definition_violated : ∃ (env : Env) (l : Linker) (i k : Nat) (p q : Path) (n : Name) (file : Bytes), l.objects[i]? = some p ∧
    l.objects[k]? = some q ∧ i ≠ k ∧ DefinesGlobally env p n ∧ DefinesGlobally env q n ∧ NamesSmall env l ∧
    link env l LinkSched.id 5 = some (.ok file) := by
  have h : links (onlyEnv onlyElf) onlyLinker LinkSched.id 5 (fun _ _ _ _ => true) = true := by decide +kernel
  obtain ⟨log, loaded, w, w', f, s, h1, _⟩ := LinkRun.of_links LinkSched.id_valid (CleanFiles.of_table (by decide +kernel)) h
  exact ⟨onlyEnv onlyElf, onlyLinker, 1, 2, onePath, otherPath, b!"f", f, rfl, rfl, by decide, one_defines (by decide), one_defines (by decide),
    NamesSmall.of_table (by decide +kernel), h1⟩

end Linker

theorem one_plain {l : Linker} : PlainBinds (onlyEnv twiceElf) l b!"f" := by
  intro e he s hs _
  have he := he.of_table
  simp only [List.map_cons, List.map_nil, List.mem_cons, List.not_mem_nil, or_false] at he
  rcases he with rfl | rfl
  · exact (by decide : ∀ s ∈ twiceElf.syms, s.st_info / 16 ≤ 2) s hs
  · exact (by decide : ∀ s ∈ oneElf.syms, s.st_info / 16 ≤ 2) s hs

/-- without the unique symbol the link fails -/
example (sched : LinkSched) (hv : sched.Valid) (fuel : Nat) (file : Bytes) :
    Linker.link (onlyEnv twiceElf) onlyLinker sched fuel ≠ some (.ok file) :=
  Linker.C135_objects_partial (i := 1) (k := 2) hv (NamesSmall.of_table (by decide +kernel)) rfl rfl (by decide) (one_defines (by decide))
    (one_defines (by decide)) one_plain file

/-- and so it does when one file is named twice -/
example (sched : LinkSched) (hv : sched.Valid) (fuel : Nat) (file : Bytes) :
    Linker.link (onlyEnv twiceElf) { onlyLinker with objects := [onlyPath, onePath, onePath] } sched fuel ≠ some (.ok file) :=
  Linker.C135_objects_partial (i := 1) (k := 2) hv (NamesSmall.of_table (by decide +kernel)) rfl rfl (by decide) (one_defines (by decide))
    (one_defines (by decide)) one_plain file

/-- with one of the files it succeeds, and both `_start` and `f` have one definition -/
example : ∃ file, Linker.link (onlyEnv twiceElf) { onlyLinker with objects := [onlyPath, onePath] } LinkSched.id 5 = some (.ok file) := by
  obtain ⟨log, loaded, w, w', f, s, h1, _⟩ := LinkRun.of_links (env := onlyEnv twiceElf) (l := { onlyLinker with objects := [onlyPath, onePath] })
    (P := fun _ _ _ _ => true) (fuel := 5) LinkSched.id_valid (CleanFiles.of_table (by decide +kernel)) (by decide +kernel)
  exact ⟨f, h1⟩

end Dld
