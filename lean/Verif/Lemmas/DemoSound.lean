import Verif.Spec.Sound
import Verif.Lemmas.DemoLink
/-! # Checks of the requirements on input files, for concrete files -/
namespace Dld
open Writer Spec

variable {files : List (Path × Bytes)} {elfs : List (Bytes × ElfFile)} {ars : List (Bytes × ArFile)} {l : Linker}

theorem InputAt.of_table {p : Path} {d : Bytes} {e : ElfFile} (h : InputAt (tableEnv files elfs ars) l p d e) : (d, e) ∈ elfs := by
  cases h with
  | object hp hd he ho => exact AMap.mem_of_get? he
  | member hp hd ha hn hm he ho => exact AMap.mem_of_get? he

/-- a check of what `SoundFiles` asks of an object file -/
def soundElf (d : Bytes) (e : ElfFile) : Bool :=
  e.sectionHeaders.all (fun sh => auxiliaryTypes.contains sh.sh_type ||
    ((sh.sh_type == 8 || decide (sh.sh_offset + sh.sh_size ≤ d.length)) && (e.secName sh.sh_name != some [] || sh.sh_type != 8))) &&
  (e.syms.all (fun s => s.st_info % 16 != 3 || (e.symName s.st_name).all (· == [])) &&
  e.relocs.all fun y => y.2.2.2.r_sym == 0 || (decide (y.2.2.2.r_sym < e.syms.length) && decide (0 < y.2.1)))

theorem SoundFiles.of_table (h : (elfs.all fun x => soundElf x.1 x.2) = true) (hl : l.options.dynamicLinker.file.isSome)
    (hs : ∀ p ∈ l.options.sharedLibs.map (·.1), p.file.isSome ∧ ∀ d, AMap.get? files p = some d → (AMap.get? elfs d).isSome)
    (hm : ∀ p ∈ l.archives, ∀ data ar n m, AMap.get? files p = some data → AMap.get? ars data = some ar → ar.memberOfSymbol n = some m →
      ∃ d, ar.get m = some d ∧ ∀ e, AMap.get? elfs d = some e → e.isObjectFile = true) : SoundFiles (tableEnv files elfs ars) l := by
  have hall : ∀ d e, (d, e) ∈ elfs → soundElf d e = true := fun d e hm => List.all_eq_true.1 h _ hm
  have hsec : ∀ d e sh, (d, e) ∈ elfs → sh ∈ e.sectionHeaders → sh.sh_type ∉ auxiliaryTypes →
      (sh.sh_type = 8 ∨ sh.sh_offset + sh.sh_size ≤ d.length) ∧ (e.secName sh.sh_name ≠ some [] ∨ sh.sh_type ≠ 8) := by
    intro d e sh he hs ht
    have := hall d e he
    simp only [soundElf, Bool.and_eq_true, List.all_eq_true] at this
    have := this.1 sh hs
    rw [Bool.or_eq_true] at this
    rcases this with h | h
    · exact absurd (by simpa using h) ht
    · simpa using h
  refine ⟨hl, ?_, ?_, ?_, ?_, hs, hm⟩
  · intro p d e sh hi hs ht h8
    exact (hsec d e sh hi.of_table hs ht).1.resolve_left h8
  · intro p d e sh hi hc
    exact (hsec d e sh hi.of_table hc.1 hc.2.1).2.resolve_left fun h => h hc.2.2
  · intro p d e s n hi hs h3 hn
    have := hall d e hi.of_table
    simp only [soundElf, Bool.and_eq_true, List.all_eq_true] at this
    have := this.2.1 s hs
    rw [hn] at this
    simpa [h3] using this
  · intro p d e k pos j rel hi hr h0
    have := hall d e hi.of_table
    simp only [soundElf, Bool.and_eq_true, List.all_eq_true] at this
    simpa [h0] using this.2.2 _ hr

/-- the names of the symbols -/
def allNames (elfs : List (Bytes × ElfFile)) : List Name := [] :: elfs.flatMap fun x => x.2.syms.filterMap fun s => x.2.symName s.st_name

theorem sum_subset {α : Type} [BEq α] [LawfulBEq α] (f : α → Nat) : ∀ (L ns : List α), ns.Nodup → (∀ n ∈ ns, n ∈ L) → (ns.map f).sum ≤ (L.map f).sum
  | [], ns, _, hs => by
    cases ns with
    | nil => simp
    | cons n ns => exact absurd (hs n (by simp)) (by simp)
  | x :: L, ns, hd, hs => by
    by_cases hx : x ∈ ns
    · have hp := (List.perm_cons_erase hx).map f
      have ih := sum_subset f L (ns.erase x) (hd.erase x) fun n hn => by
        rcases List.mem_cons.1 (hs n (List.mem_of_mem_erase hn)) with h | h
        · subst h; exact absurd hn (by rw [hd.mem_erase_iff]; simp)
        · exact h
      rw [hp.sum_nat, List.map_cons, List.sum_cons, List.map_cons, List.sum_cons]
      omega
    · have ih := sum_subset f L ns hd fun n hn => by
        rcases List.mem_cons.1 (hs n hn) with h | h
        · subst h; exact absurd hn hx
        · exact h
      rw [List.map_cons, List.sum_cons]
      omega

theorem NamesSmall.of_table (h : ((allNames elfs).map (·.length + 1)).sum < 2 ^ 32) : NamesSmall (tableEnv files elfs ars) l := by
  intro ns hd hn
  refine Nat.lt_of_le_of_lt (sum_subset (fun n : Name => n.length + 1) (allNames elfs) ns hd fun n hm => ?_) h
  rcases hn n hm with rfl | ⟨p, d, e, s, hi, hs, hn⟩
  · exact List.mem_cons_self
  · exact List.mem_cons_of_mem _ (List.mem_flatMap.2 ⟨(d, e), hi.of_table, List.mem_filterMap.2 ⟨s, hs, hn⟩⟩)

/-- a check of `FewFlags` -/
theorem FewFlags.of_table {F : List Nat} (h : (elfs.all fun x => x.2.sectionHeaders.all fun sh => auxiliaryTypes.contains sh.sh_type || F.contains sh.sh_flags) = true)
    (hF : F.length ≤ 1000) : FewFlags (tableEnv files elfs ars) l F := by
  refine ⟨?_, hF⟩
  intro p d e sh n hi hc
  have := List.all_eq_true.1 (List.all_eq_true.1 h _ hi.of_table) sh hc.1
  rw [Bool.or_eq_true] at this
  rcases this with h | h
  · exact absurd (by simpa using h) hc.2.1
  · simpa using h

instance decApart (a b : Nat × Nat) : Decidable (Apart a b) := inferInstanceAs (Decidable (_ ∨ _))
instance (data : Bytes) (off : Nat) : Decidable (CallOrJump data off) := inferInstanceAs (Decidable (_ ∧ _))

/-- a check of `LoadRip` -/
def loadRip (data : Bytes) (off : Nat) : Bool :=
  decide (3 ≤ off) && ((data[off - 3]? == some 0x48 || data[off - 3]? == some 0x4c) && (data[off - 2]? == some 0x8b &&
    (data[off - 1]?).any fun (z : UInt8) => z.toNat % 8 == 5 && decide (z.toNat < 64)))

theorem loadRip_ok {data : Bytes} {off : Nat} (h : loadRip data off = true) : LoadRip data off := by
  simp only [loadRip, Bool.and_eq_true, Bool.or_eq_true, decide_eq_true_eq, beq_iff_eq, Option.any_eq_true] at h
  obtain ⟨h1, h2, h3, z, hz, h4, h5⟩ := h
  exact ⟨h1, h2, h3, z, hz, h4, h5⟩

/-- a check that all symbols of the name are thread-local -/
def tlsName (elfs : List (Bytes × ElfFile)) (n : Name) : Bool :=
  n != [] && elfs.all fun x => x.2.syms.all fun s => x.2.symName s.st_name != some n || s.st_info % 16 == 6

theorem tlsName_ok {n : Name} (h : tlsName elfs n = true) : TlsName (tableEnv files elfs ars) l n := by
  simp only [tlsName, Bool.and_eq_true, List.all_eq_true] at h
  refine ⟨by simpa using h.1, ?_⟩
  intro p d e s hi hs hn
  have := h.2 _ hi.of_table s hs
  simpa [hn] using this

/-- a check of what `SoundRelocs` asks of a relocation -/
def soundReloc (elfs : List (Bytes × ElfFile)) (d : Bytes) (e : ElfFile) (y : Nat × Nat × Nat × InReloc) : Bool :=
  [0, 1, 2, 3, 4, 10, 11, 19, 22, 23, 41, 42].contains (relType y.2.2.2.rela) &&
  ((e.sectionHeaders[y.2.1 - 1]?).all (fun (sh : SectionHeader) => sh.sh_type != 8 &&
    (decide ((relField y.2.2.2.rela).1 + (relField y.2.2.2.rela).2 ≤ sh.sh_size) &&
    ((relType y.2.2.2.rela != 41 || decide (CallOrJump (sectionSlice d sh) y.2.2.2.r_offset)) &&
    ((relType y.2.2.2.rela != 42 || loadRip (sectionSlice d sh) y.2.2.2.r_offset) &&
    elfs.all fun x => x.2.sectionHeaders.all fun sh' => auxiliaryTypes.contains sh'.sh_type || e.secName sh.sh_name == none ||
      x.2.secName sh'.sh_name != e.secName sh.sh_name || sh'.sh_flags / 2 % 2 == 1)))) &&
  ((relType y.2.2.2.rela != 19 && relType y.2.2.2.rela != 22) || (e.syms[y.2.2.2.r_sym]?).all fun (s : Sym) => (e.symName s.st_name).all (tlsName elfs)))

theorem SoundRelocs.of_table (h : (elfs.all fun x => x.2.usedRelocs.all (soundReloc elfs x.1 x.2)) = true)
    (ha : ∀ x ∈ elfs, x.2.usedRelocs.Pairwise fun a b => a.2.1 = b.2.1 → Apart (relField a.2.2.2.rela) (relField b.2.2.2.rela)) :
    SoundRelocs (tableEnv files elfs ars) l := by
  have hall : ∀ d e, (d, e) ∈ elfs → ∀ y ∈ e.usedRelocs, soundReloc elfs d e y = true :=
    fun d e hm y hy => List.all_eq_true.1 (List.all_eq_true.1 h _ hm) y hy
  refine ⟨?_, ?_, ?_, fun p d e hi => ha _ hi.of_table, ?_⟩
  · intro p d e k pos j rel hi hr
    have := hall d e hi.of_table _ hr
    simp only [soundReloc, Bool.and_eq_true] at this
    exact List.contains_iff_mem.1 this.1
  · intro p d e k pos j rel sh hi hr hs
    have := hall d e hi.of_table _ hr
    simp only [soundReloc, Bool.and_eq_true] at this
    have := this.2.1
    rw [hs] at this
    simp only [Option.all_some, Bool.and_eq_true] at this
    obtain ⟨h1, h2, h3, h4, _⟩ := this
    refine ⟨by simpa using h1, by simpa using h2, fun ht => ?_, fun ht => ?_⟩
    · simpa [ht] using h3
    · exact loadRip_ok (by simpa [ht] using h4)
  · intro p d e k pos j rel s n hi hr ht hs hn
    have := hall d e hi.of_table _ hr
    simp only [soundReloc, Bool.and_eq_true] at this
    have := this.2.2
    rw [hs] at this
    simp only [Option.all_some, hn, Bool.or_eq_true, Bool.and_eq_true] at this
    rcases this with h | h
    · simp only [bne_iff_ne, ne_eq] at h
      rcases ht with ht | ht
      · exact absurd ht h.1
      · exact absurd ht h.2
    · exact tlsName_ok h
  · intro p d e k pos j rel sh n hi hr hs hn p' d' e' sh' hi' hc
    have := hall d e hi.of_table _ hr
    simp only [soundReloc, Bool.and_eq_true] at this
    have := this.2.1
    rw [hs] at this
    simp only [Option.all_some, Bool.and_eq_true] at this
    have := List.all_eq_true.1 (List.all_eq_true.1 this.2.2.2.2 _ hi'.of_table) sh' hc.1
    simp only [hn, hc.2.2, Bool.or_eq_true] at this
    rcases this with ((h | h) | h) | h
    · exact absurd (by simpa using h) hc.2.1
    · simp at h
    · simp at h
    · simpa using h

theorem FieldNumbers.of_table (h : (elfs.all fun x => x.2.sectionHeaders.all (fun sh => decide sh.Fits) && x.2.syms.all (fun s => decide s.Fits) &&
    x.2.dynsyms.all fun s => decide s.Fits) = true) : FieldNumbers (tableEnv files elfs ars) l := by
  refine ⟨?_, ?_, ?_⟩
  · intro p d e sh hi hs
    have := List.all_eq_true.1 h _ hi.of_table
    simp only [Bool.and_eq_true, List.all_eq_true, decide_eq_true_eq] at this
    exact this.1.1 sh hs
  · intro p d e s hi hs
    have := List.all_eq_true.1 h _ hi.of_table
    simp only [Bool.and_eq_true, List.all_eq_true, decide_eq_true_eq] at this
    exact this.1.2 s hs
  · rintro p s n ⟨_, data, e, _, he, hs, _⟩
    have := List.all_eq_true.1 h _ (AMap.mem_of_get? he)
    simp only [Bool.and_eq_true, List.all_eq_true, decide_eq_true_eq] at this
    exact this.2 s hs

end Dld
