import Verif.Props.Got
/-! # Slots handed out by `scan_relocations` (C20, C21)

Here nothing is assumed about the inputs: `Hist opts ops w` says that `w` is the writer after any sequence
of successful calls. -/
namespace Dld
open Writer Spec

/-- the invariant of the scan, over any history -/
theorem Hist.scanInv (hh : Hist opts ops w) (h : w.scanRelocations = .ok w') :
    ∃ ks gs, ScanInv w.symtab (relocsOf w) ks gs
        { symtab := w'.symtab, plt := w'.plt, gotPlt := w'.gotPlt, gotLen := w'.gotLen } := by
  obtain ⟨ns, nd, hT⟩ := hh.tableFacts
  have hu := hh.untouched
  have hI : ScanInv w.symtab [] [] [] { symtab := w.symtab, plt := w.plt, gotPlt := w.gotPlt, gotLen := w.gotLen } :=
    ScanInv.init (st := { symtab := w.symtab, plt := w.plt, gotPlt := w.gotPlt, gotLen := w.gotLen }) hu.plt hu.gotPlt hu.gotLen
      fun r s hs => ⟨(hT.blank r s hs).1, (hT.blank r s hs).2.1, (hT.blank r s hs).2.2.1⟩
  obtain ⟨ks, gs, h1, -⟩ := hI.all (scan_flat h)
  exact ⟨ks, gs, by simpa using h1⟩

/-- **C20** After the scan of any history: a symbol has a PLT index exactly if a library provides it and some
relocation calls it through the PLT; its word in `.got.plt` is then word `index + 3`, and it has none
otherwise; different symbols have different indices; and the indices in use are those below the number of
PLT entries. -/
theorem C20_plt_slots (hh : Hist opts ops w) (h : w.scanRelocations = .ok w') :
    (∀ r s, w'.symtab.get r = some s →
      (s.inPlt.isSome = true ↔ Imported w.symtab r ∧ ∃ rel, (rel, r) ∈ relocsOf w ∧ UsesPlt rel) ∧
      s.inGotPlt = s.inPlt.map fun i => 8 * (i + 3)) ∧
    (∀ r s r' s' i, w'.symtab.get r = some s → w'.symtab.get r' = some s' → s.inPlt = some i → s'.inPlt = some i → r = r') ∧
    (∀ i, i < w'.plt.length ↔ ∃ r s, w'.symtab.get r = some s ∧ s.inPlt = some i) ∧ w'.gotPlt.length = w'.plt.length := by
  obtain ⟨ks, gs, I⟩ := hh.scanInv h
  have hplt : w'.plt = ks.zipIdx := I.plt
  have hgp : w'.gotPlt = ks.zipIdx.map fun e => (e.1, (e.2 + 3) * 8) := I.gotPlt
  have hin : ∀ r s, w'.symtab.get r = some s → s.inPlt = if r ∈ ks then some (ks.idxOf r) else none := by
    intro r s hs
    have := (I.inPlt r s hs).1
    simp only [hplt] at this
    rw [this, get?_zipIdx]; simp
  have hgg : ∀ (l : List (SymbolRef × Nat)) r, AMap.get? (l.map fun e => (e.1, (e.2 + 3) * 8)) r =
      (AMap.get? l r).map fun i => 8 * (i + 3) := by
    intro l r
    induction l with
    | nil => rfl
    | cons e l ih =>
      simp only [List.map_cons, AMap.get?]
      split
      · simp [Nat.mul_comm]
      · exact ih
  have hidx : ∀ {r s i}, w'.symtab.get r = some s → s.inPlt = some i → ks[i]? = some r := by
    intro r s i hs hi
    rw [hin r s hs] at hi
    split at hi
    · next hm =>
      cases hi
      have hlt := List.idxOf_lt_length_of_mem hm
      rw [List.getElem?_eq_getElem hlt, List.getElem_idxOf hlt]
    · cases hi
  refine ⟨?_, ?_, ?_, ?_⟩
  · intro r s hs
    refine ⟨?_, ?_⟩
    · rw [hin r s hs]
      have := I.calls r
      constructor
      · intro hh
        split at hh
        · next hm => obtain ⟨rel, h1, h2, h3⟩ := this.1 hm; exact ⟨h3, rel, h1, h2⟩
        · cases hh
      · rintro ⟨h3, rel, h1, h2⟩
        rw [if_pos (this.2 ⟨rel, h1, h2, h3⟩)]; rfl
    · have h1 := (I.inPlt r s hs)
      simp only [hplt, hgp, hgg] at h1
      rw [h1.1, h1.2]
  · intro r s r' s' i h1 h2 h3 h4
    have := hidx h1 h3
    rw [hidx h2 h4] at this
    exact (Option.some.inj this).symm
  · intro i
    rw [hplt, List.length_zipIdx]
    constructor
    · intro hlt
      have hm : ks[i] ∈ ks := List.getElem_mem hlt
      obtain ⟨rel, h1, h2, h3⟩ := (I.calls _).1 hm
      obtain ⟨s0, h0⟩ := Option.isSome_iff_exists.1 (I.has _ h1 (.inr h2))
      obtain ⟨s, hs, -⟩ := SymbolTable.view_get_some I.tab.symm h0
      refine ⟨_, s, hs, ?_⟩
      rw [hin _ s hs, if_pos hm, I.nodup.idxOf_getElem]
    · rintro ⟨r, s, hs, hi⟩
      exact (List.getElem?_eq_some_iff.1 (hidx hs hi)).1
  · rw [hplt, hgp]; simp

/-- **C21** After the scan of any history: a symbol has a GOT slot exactly if some relocation refers to the GOT
for it; a slot is an aligned word within the words counted for `.got`, never the first one; and the slots of
different symbols are different words. -/
theorem C21_got_slots (hh : Hist opts ops w) (h : w.scanRelocations = .ok w') {r : SymbolRef} {s : Symbol}
    (hs : w'.symtab.get r = some s) :
    (s.inGot.isSome = true ↔ ∃ rel, (rel, r) ∈ relocsOf w ∧ UsesGot rel) ∧
    ∀ o, s.inGot = some o → o % 8 = 0 ∧ 8 ≤ o ∧ o + 8 ≤ 8 * w'.gotLen ∧
      ∀ r' s' o', w'.symtab.get r' = some s' → s'.inGot = some o' → r' ≠ r → o' + 8 ≤ o ∨ o + 8 ≤ o' := by
  obtain ⟨ks, gs, I⟩ := hh.scanInv h
  have hp : Packed 1 gs w'.gotLen := I.packed
  have key : ∀ {r s o}, w'.symtab.get r = some s → s.inGot = some o → ∃ e ∈ gs, e.1 = r ∧ o = e.2.1 * 8 := by
    intro r s o hs ho
    rw [I.inGot r s hs, Option.map_eq_some_iff] at ho
    obtain ⟨e, he, ho⟩ := ho
    exact ⟨(r, e), AMap.mem_of_get? he, rfl, ho.symm⟩
  refine ⟨?_, ?_⟩
  · rw [I.inGot r s hs, Option.isSome_map, ← I.users]
    exact AMap.get?_isSome
  · intro o ho
    obtain ⟨e, he, her, rfl⟩ := key hs ho
    obtain ⟨b1, b2, b3⟩ := (Packed.bounds hp).2 e he
    refine ⟨by omega, by omega, by omega, ?_⟩
    intro r' s' o' hs' ho' hne
    obtain ⟨e', he', her', rfl⟩ := key hs' ho'
    have := Packed.disjoint hp he he' (by rw [her, her']; exact fun e => hne e.symm)
    have b2' := ((Packed.bounds hp).2 e' he').2.1
    omega

/-- `C20_plt_slots`, `C21_got_slots`: two functions called through the PLT, one of them twice, and two symbols
with GOT slots, one of them thread-local with two words -/
def slotOps : List Op :=
  importOps ++
  [ .sym (demoSym 6 2 0 4) (some ⟨16, 0⟩) b!"tls" demoPath (.named 28),
    .sym (demoSym 0 0 0 0) (some ⟨0, 0⟩) b!"exit" demoPath (.named 32),
    .reloc { r_offset := 2, r_info := 9 * 2 ^ 32 + R_X86_64_PLT32, r_addend := -4 } (.named 32) ⟨16, 0⟩ demoPath,
    .reloc { r_offset := 3, r_info := 9 * 2 ^ 32 + R_X86_64_TLSGD, r_addend := -4 } (.named 28) ⟨16, 0⟩ demoPath,
    .reloc { r_offset := 4, r_info := 8 * 2 ^ 32 + R_X86_64_PLT32, r_addend := -4 } (.named 8) ⟨16, 0⟩ demoPath,
    .reloc { r_offset := 5, r_info := 8 * 2 ^ 32 + R_X86_64_GOTPCREL, r_addend := -4 } (.named 8) ⟨16, 0⟩ demoPath,
    .dynsym (demoSym STT_FUNC 12 0x1244 10) b!"exit" demoPath (.named 52) ]

example : ∃ w w', Hist Options.default slotOps w ∧ w.scanRelocations = .ok w' ∧
    (w'.symtab.get (.named 8)).map (fun s => (s.inPlt, s.inGotPlt, s.inGot)) = some (some 0, some 24, some 32) ∧
    (w'.symtab.get (.named 32)).map (fun s => (s.inPlt, s.inGotPlt, s.inGot)) = some (some 1, some 32, none) ∧
    (w'.symtab.get (.named 13)).map (fun s => (s.inPlt, s.inGotPlt, s.inGot)) = some (none, none, some 8) ∧
    (w'.symtab.get (.named 28)).map (fun s => (s.inPlt, s.inGotPlt, s.inGot)) = some (none, none, some 16) ∧
    w'.plt.length = 2 ∧ w'.gotLen = 5 := by
  have h : (match runOps Options.default slotOps with
    | .ok w => match w.scanRelocations with
      | .ok w' => decide ((w'.symtab.get (.named 8)).map (fun s => (s.inPlt, s.inGotPlt, s.inGot)) = some (some 0, some 24, some 32) ∧
          (w'.symtab.get (.named 32)).map (fun s => (s.inPlt, s.inGotPlt, s.inGot)) = some (some 1, some 32, none) ∧
          (w'.symtab.get (.named 13)).map (fun s => (s.inPlt, s.inGotPlt, s.inGot)) = some (none, none, some 8) ∧
          (w'.symtab.get (.named 28)).map (fun s => (s.inPlt, s.inGotPlt, s.inGot)) = some (none, none, some 16) ∧
          w'.plt.length = 2 ∧ w'.gotLen = 5)
      | .error _ => false
    | .error _ => false) = true := by decide +kernel
  split at h
  · next w hw =>
    split at h
    · next w' hw' => exact ⟨w, w', Hist.of_run hw, hw', of_decide_eq_true h⟩
    · cases h
  · cases h

end Dld
