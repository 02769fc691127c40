import Verif.Props.Runtime
/-! # C99-C103: programs that start and programs that do not -/
namespace Dld
open Spec Writer
variable {opts : Options} {ops : List Op} {sched : Sched} {w w' : Writer} {file : Bytes} {secs : List Section}

/-! ### Concrete programs -/

/-- zero-fill sections stand last, from the writer -/
def zeroLast (secs : List Section) : Bool :=
  decide (secs.Pairwise fun s t => s.sh.sh_flags = t.sh.sh_flags → s.kind ≠ .copyRel → t.sh.sh_type ≠ 8 → s.sh.sh_type ≠ 8)

theorem GoodRun.zeroFillLast (G : GoodRun opts ops sched w w' file secs) (h : zeroLast secs = true) : ZeroFillLast file := by
  have h := of_decide_eq_true h
  intro i j a b hij ha hb hf hn ht
  obtain ⟨s, hs, rfl⟩ := G.header_at ha
  obtain ⟨t, hst, rfl⟩ := G.header_at hb
  obtain ⟨hi, rfl⟩ := List.getElem?_eq_some_iff.1 hs
  obtain ⟨hj, rfl⟩ := List.getElem?_eq_some_iff.1 hst
  exact List.pairwise_iff_getElem.1 h i j hi hj hij hf (fun hk => hn ((G.copyRel_name (List.getElem_mem hi)).2 hk)) ht

/-- A program that calls `puts` and loads its address through the GOT; `puts` is in a shared library. The program mentions `tzname` as well. -/
def startOps (more : List Op) : List Op :=
  [ .push [] {} (some []) ⟨0, 0⟩,
    .push b!".text" (demoSh SHT_PROGBITS 6 16 16) (some ([0xe8, 0, 0, 0, 0, 0x48, 0x8b, 0x05, 0, 0, 0, 0] ++ List.replicate 4 0x90)) ⟨16, 0⟩,
    .sym (demoSym STT_FUNC 1 0 12) (some ⟨16, 0⟩) b!"_start" demoPath (.named 1),
    .sym (demoSym 0 0 0 0) (some ⟨0, 0⟩) b!"puts" demoPath (.named 8),
    .sym (demoSym 0 0 0 0) (some ⟨0, 0⟩) b!"tzname" demoPath (.named 13),
    .reloc { r_offset := 1, r_info := 2 ^ 32 + 4, r_addend := -4 } (.named 8) ⟨16, 0⟩ demoPath,
    .reloc { r_offset := 8, r_info := 2 ^ 32 + 42, r_addend := -4 } (.named 8) ⟨16, 0⟩ demoPath,
    .dynsym (demoSym STT_FUNC 12 0x1234 10) b!"puts" demoPath (.named 22) ] ++ more ++ [ .needed b!"libc.so.6" ]

/-- the library has the object `tzname`, of `n` bytes -/
def tznameOp (n : Nat) : Op := .dynsym (demoSym STT_OBJECT 13 0x5678 n) b!"tzname" demoPath (.named 27)

/-- initialised variables -/
def varsOp : Op := .push b!".data" (demoSh SHT_PROGBITS 3 16 16) (some [1, 2, 3, 4, 5, 6, 7, 8, 9, 10, 11, 12, 13, 14, 15, 16]) ⟨17, 0⟩

/-- variables that start as zero, with an alignment of 32 -/
def zerosOp : Op := .push b!".bss" (demoSh SHT_NOBITS 3 64 32) none ⟨17, 0⟩

/-- the additions to the program -/
def startMore : List (List Op) := [[], [tznameOp 16], [tznameOp 8192], [tznameOp 16, varsOp], [zerosOp]]

theorem start_good : ∀ l ∈ startMore, goodOps (startOps l) = true ∧ cleanSyms (startOps l) = true := by decide +kernel

theorem start_plain : ∀ l ∈ startMore, PlainTypes (startOps l) := by
  intro l hl
  simp only [startMore, List.mem_cons, List.not_mem_nil, or_false] at hl
  rcases hl with rfl | rfl | rfl | rfl | rfl <;> exact .of_all (by decide +kernel)

theorem start_refers (l : List Op) : Refers (startOps l) (.named 8) b!"puts" :=
  ⟨demoSym 0 0 0 0, some ⟨0, 0⟩, demoPath, by simp [startOps], by decide⟩

theorem start_imported (l : List Op) : ImportedIn (startOps l) b!"puts" :=
  ⟨(startOps l).take 7, _, _, _, (startOps l).drop 8, rfl, demoSym 0 0 0 0, some ⟨0, 0⟩, demoPath, .named 8, by simp [startOps]⟩

theorem start_text : ∀ l ∈ startMore, ∀ rel ∈ [⟨1, 2 ^ 32 + 4, -4⟩, ⟨8, 2 ^ 32 + 42, -4⟩], RefersAt (startOps l) b!".text" rel.r_offset rel (.named 8) := by
  intro l hl rel hr
  have hop : Op.reloc rel (.named 8) ⟨16, 0⟩ demoPath ∈ startOps l := by
    simp only [List.mem_cons, List.not_mem_nil, or_false] at hr
    rcases hr with rfl | rfl <;> simp [startOps]
  refine ⟨(startOps l).take 1, _, _, ⟨16, 0⟩, (startOps l).drop 2, demoPath, rfl, hop, (Nat.zero_add _).symm, ?_⟩
  simp only [startMore, List.mem_cons, List.not_mem_nil, or_false] at hl
  rcases hl with rfl | rfl | rfl | rfl | rfl <;> decide

/-- what is known about the program with the additions `l` -/
structure Started (l : List Op) (file : Bytes) (o g : EShdr) : Prop where
  link : ∃ w w' secs, GoodLink Options.default (startOps l) Sched.id w w' file secs
  plain : PlainTypes (startOps l)
  zero : ZeroFillLast file
  text : sectionsNamed file b!".text" = [o]
  alloc : o.allocated = true
  fixed : o.flags.testBit 0 = false
  bits : o.type ≠ 8
  got : sectionsNamed file b!".got" = [g]
  call : ∃ t, decodeInstr (bodyOf file o) 0 (o.addr + 0 : Nat) = some (.call t, 5)
  load : decodeInstr (bodyOf file o) 5 (o.addr + 5 : Nat) = some (.load 0 (g.addr + 8 : Nat), 7)

theorem start_links (l : List Op) (hl : l ∈ startMore) (P : Writer → Writer → Bytes → List Section → Bool)
    (h : runs .default (startOps l) .id (fun w w' f s => numbersFit w w' f s && (linkFits w w' && (zeroLast s && (match secsNamed w s b!".text", secsNamed w s b!".got" with
      | [o], [g] => o.allocated && !o.flags.testBit 0 && o.type != 8 &&
        (match decodeInstr (bodyOf f o) 0 (o.addr + 0 : Nat) with
          | some (.call _, 5) => true
          | _ => false) &&
        decide (decodeInstr (bodyOf f o) 5 (o.addr + 5 : Nat) = some (.load 0 (g.addr + 8 : Nat), 7))
      | _, _ => false) && P w w' f s))) = true) :
    ∃ w w' f s o g, GoodLink Options.default (startOps l) Sched.id w w' f s ∧ Started l f o g ∧ P w w' f s = true := by
  obtain ⟨w, w', f, s, h, hp⟩ := GoodLink.of_runs Sched.id_valid (start_good l hl).1 (start_good l hl).2 h
  rw [Bool.and_eq_true, Bool.and_eq_true] at hp
  obtain ⟨⟨hz, hm⟩, hp⟩ := hp
  simp only [h.toGoodRun.secsNamed_eq] at hm
  split at hm
  · next o g ho hg =>
    simp only [Bool.and_eq_true, decide_eq_true_eq, Bool.not_eq_true', bne_iff_ne] at hm
    obtain ⟨⟨⟨⟨h1, h2⟩, h3⟩, h4⟩, h5⟩ := hm
    refine ⟨w, w', f, s, o, g, h, ⟨⟨w, w', s, h⟩, start_plain l hl, h.toGoodRun.zeroFillLast hz, ho, h1, h2, h3, hg, ?_, h5⟩, hp⟩
    split at h4
    · next t he => exact ⟨t, he⟩
    · cases h4
  · cases hm

/-- `C99_tables_partial`, `C100_starts_partial`, `C101_call_partial`, `C102_got_partial`, `C103_contents_partial`: the program without additions starts if a library
has `puts`; its call leads to `puts`, and it loads the address of `puts`. -/
example : ∃ f o g, Started [] f o g ∧ LoaderTables f ∧ ∀ libs : Libs, (libs.addr b!"puts").isSome = true → ∃ m t a, started f libs = some m ∧
    instrAt m o.addr = some (.call (t : Nat)) ∧ JumpsTo m t a ∧ instrAt m (o.addr + 5) = some (.load 0 (g.addr + 8 : Nat)) ∧ wordAt m (g.addr + 8) = some a ∧
    libs.addr b!"puts" = some a ∧ readMem m o.addr o.size = some (bodyOf f o) := by
  have hl : [] ∈ startMore := by simp [startMore]
  obtain ⟨w, w', f, s, o, g, h, S, hp⟩ := start_links [] hl (fun _ _ f _ => (relasOf (bodyNamed f b!".rela.dyn")).all (fun r => r.type == 6) &&
    decide (dynName f 1 = some b!"puts") && ((symsOf (bodyNamed f b!".dynsym"))[1]?).any fun (d : ESym) => d.info % 16 != 1) (by decide +kernel)
  rw [Bool.and_eq_true, Bool.and_eq_true, List.all_eq_true, decide_eq_true_eq, Option.any_eq_true] at hp
  obtain ⟨⟨hd, hk⟩, d, hd1, hd2⟩ := hp
  have hd2 : d.info % 16 ≠ 1 := by simpa using hd2
  have T := C99_tables_partial h.toGoodRun S.plain S.zero
  refine ⟨f, o, g, S, T, fun libs hlib => ?_⟩
  have hno : ∀ r ∈ relasOf (bodyNamed f b!".rela.dyn"), r.type ≠ 5 := fun r hr h5 => by
    have := eq_of_beq (hd r hr); omega
  obtain ⟨m, hm⟩ := C100_starts_partial h S.plain S.zero (libs := libs) (by
    rintro n ⟨a, e, path, dd, b, he, _⟩
    have : Op.dynsym e n path dd ∈ startOps [] := by rw [he]; simp
    simp [startOps] at this
    rw [this.2.1]; exact hlib) (fun r hr h5 => absurd h5 (hno r hr))
  obtain ⟨t, ht⟩ := S.call
  obtain ⟨c1, t', a, rfl, c2, c3⟩ := C101_call_partial h S.plain S.zero hm (start_text [] hl _ (.head _)) (by decide) (start_refers []) (start_imported []) (by decide) rfl
    hd1 hk hd2 S.text S.alloc S.fixed S.bits ht (by decide) rfl
  obtain ⟨e1, ea, k, d', a', e2, e3, e4, e5, e6⟩ := C102_got_partial h S.plain S.zero hm (start_text [] hl _ (.tail _ (.head _))) (by decide) (start_refers [])
    (start_imported []) (by decide) rfl S.got (fun r hr h5 => absurd h5 (hno r hr)) S.text S.alloc S.fixed S.bits S.load (by decide) rfl
  have hkk := h.dynName_inj hk e5
  subst hkk
  rw [hd1] at e4
  cases e4
  rw [if_neg hd2, c3] at e6
  cases e6
  have e2 : g.addr + 8 = ea := by omega
  subst e2
  obtain ⟨n1, n2⟩ := name_of_named S.text
  exact ⟨m, t', a, hm, c1, c2, e1, e3, c3, C103_contents_partial h S.plain S.zero hm n1 S.alloc S.bits n2 (by decide) (by rw [S.fixed]; intro h; cases h)⟩

/-- the program with a copied object: the copy is the last write to its place -/
theorem start_copied {l : List Op} {n : Nat} {w w' : Writer} {f : Bytes} {s : List Section} {o g : EShdr}
    (h : GoodLink Options.default (startOps l) Sched.id w w' f s) (S : Started l f o g) {r1 r2 r3 : ERela}
    (hd : relasOf (bodyNamed f b!".rela.dyn") = [r1, r2]) (hp : relasOf (bodyNamed f b!".rela.plt") = [r3]) (h2 : r2.type = 5) {y : ESym}
    (hy : (symsOf (bodyNamed f b!".dynsym"))[r2.sym]? = some y) (hn : dynName f r2.sym = some b!"tzname") (hs : y.size = n)
    {libs : Libs} {m : Mem} (hm : started f libs = some m) :
    (∀ i, i < ((libs.image b!"tzname").take n).length → writableAt f (r2.offset + i) = true) ∧
    (r2.offset + n ≤ r3.offset → readMem m r2.offset ((libs.image b!"tzname").take n).length = some ((libs.image b!"tzname").take n)) := by
  have T := h.toGoodRun.loader_tables S.plain S.zero
  have hls := T.sym _ y _ hy hn
  unfold started at hm
  rw [T.rela, T.plt, hd, hp] at hm
  obtain ⟨s', n', e1, e2, e3⟩ := relocateAll_copy (pre := [r1]) (post := [r3]) (r := r2) h2 hm
  rw [hls] at e1
  cases e1
  rw [hs] at e2 e3
  refine ⟨e2, fun h3 => e3 ?_⟩
  intro r' hr'
  rw [List.mem_singleton] at hr'
  subst hr'
  right
  unfold relWidth
  rw [if_pos h2, hls]
  simp only [Option.map_some, Option.getD_some]
  omega

/-- `.rela.dyn` has two entries, the second of which copies `tzname`, of `n` bytes, to `a`; `.rela.plt` has one entry -/
def copiesTo (f : Bytes) (n : Nat) (P : Nat → Nat → Bool) : Bool :=
  match relasOf (bodyNamed f b!".rela.dyn"), relasOf (bodyNamed f b!".rela.plt") with
  | [_, r2], [r3] => r2.type == 5 && decide (dynName f r2.sym = some b!"tzname") &&
    (((symsOf (bodyNamed f b!".dynsym"))[r2.sym]?).any fun (d : ESym) => d.size == n) && P r2.offset r3.offset
  | _, _ => false

theorem start_copiesTo {l : List Op} {n : Nat} {w w' : Writer} {f : Bytes} {s : List Section} {o g : EShdr}
    (h : GoodLink Options.default (startOps l) Sched.id w w' f s) (S : Started l f o g) {P : Nat → Nat → Bool} (hp : copiesTo f n P = true) :
    ∃ a b, P a b = true ∧ ∃ r1 r2 r3, relasOf (bodyNamed f b!".rela.dyn") = [r1, r2] ∧ relasOf (bodyNamed f b!".rela.plt") = [r3] ∧ r2.type = 5 ∧ r2.offset = a ∧
      (∃ y, (symsOf (bodyNamed f b!".dynsym"))[r2.sym]? = some y ∧ y.size = n) ∧ ∀ (libs : Libs) (m : Mem), started f libs = some m →
      (∀ i, i < ((libs.image b!"tzname").take n).length → writableAt f (a + i) = true) ∧
      (a + n ≤ b → readMem m a ((libs.image b!"tzname").take n).length = some ((libs.image b!"tzname").take n)) := by
  unfold copiesTo at hp
  split at hp
  · next r1 r2 r3 hd hpl =>
    simp only [Bool.and_eq_true, decide_eq_true_eq, Option.any_eq_true, beq_iff_eq] at hp
    obtain ⟨⟨⟨h2, hn⟩, y, hy, hs⟩, hp⟩ := hp
    exact ⟨_, _, hp, r1, r2, r3, hd, hpl, h2, rfl, ⟨y, hy, hs⟩, fun libs m hm => start_copied h S hd hpl h2 hy hn hs hm⟩
  · cases hp

/-- the memory that a segment makes -/
def segImage (f : Bytes) (p : EPhdr) : Bytes := slice f p.offset p.filesz ++ List.replicate (p.memsz - p.filesz) 0

theorem GoodRun.segment_mem (G : GoodRun opts ops sched w w' file secs) {ph : ProgramHeader} (hph : ph ∈ loadsOf w')
    (hf : ph.p_offset + ph.p_filesz ≤ file.length) {i n : Nat} (hi : i + n ≤ ph.p_memsz) :
    readMem (memAt file) (ph.p_vaddr + i) n = some (slice (segImage file ph.toSpec) i n) := by
  have hle := ((C40_load_segments G.run G.good.flags).1 ph hph).2.2.2.2.2
  have hl : (slice file ph.p_offset ph.p_filesz).length = ph.p_filesz := by simp [slice]; omega
  have hlen : (segImage file ph.toSpec).length = ph.p_memsz := by
    show (slice file ph.p_offset ph.p_filesz ++ List.replicate (ph.p_memsz - ph.p_filesz) 0).length = _
    rw [List.length_append, hl, List.length_replicate]; omega
  rw [readMem_iff]
  refine ⟨by simp [slice, hlen]; omega, fun j hj => ?_⟩
  rw [Nat.add_assoc]
  simp only [slice, List.getElem?_take, List.getElem?_drop, if_pos hj]
  show _ = (slice file ph.p_offset ph.p_filesz ++ List.replicate (ph.p_memsz - ph.p_filesz) 0)[i + j]?
  by_cases hk : i + j < ph.p_filesz
  · rw [G.memAt_file hph hk, List.getElem?_append_left (by omega)]
    simp [slice, List.getElem?_drop, hk]
  · rw [G.memAt_zero hph (by omega) (by omega), List.getElem?_append_right (by omega), List.getElem?_replicate, if_pos (by omega)]

/-- **C99 is violated**: in a program with a zero-fill section of larger alignment than `.dynamic`, the loader does not find the dynamic symbols: the dynamic
table has no `DT_SYMTAB` (6) for it. -/
theorem C99_tables_violated : ∃ w w' f s, GoodLink Options.default (startOps [zerosOp]) Sched.id w w' f s ∧ PlainTypes (startOps [zerosOp]) ∧
    dynTag f 6 = none ∧ (∀ k, loadedSym f k = none) ∧ ¬ LoaderTables f := by
  have hl : [zerosOp] ∈ startMore := by simp [startMore]
  obtain ⟨w, w', f, s, h, hp⟩ := GoodLink.of_runs (opts := .default) (P := fun _ w' f _ => decide (dynName f 1 = some b!"puts") && decide (((symsOf (bodyNamed f b!".dynsym"))[1]?).isSome = true) &&
    (match phdrsOf f 2 with
      | [p] => (loadsOf w').any fun ph => decide (ph.p_offset + ph.p_filesz ≤ f.length ∧ ph.p_vaddr ≤ p.vaddr ∧ p.vaddr - ph.p_vaddr + p.memsz ≤ ph.p_memsz ∧
          (((dynsOf (slice (segImage f ph.toSpec) (p.vaddr - ph.p_vaddr) p.memsz)).takeWhile fun e => e.1 != 0).find? fun e => e.1 == 6) = none)
      | _ => false))
    Sched.id_valid (start_good _ hl).1 (start_good _ hl).2 (by decide +kernel)
  simp only [Bool.and_eq_true, decide_eq_true_eq] at hp
  obtain ⟨⟨h1, h2⟩, h3⟩ := hp
  have h6 : dynTag f 6 = none := by
    split at h3
    · next p hp =>
      simp only [List.any_eq_true, decide_eq_true_eq] at h3
      obtain ⟨ph, hph, a, b, c, d⟩ := h3
      have hm := h.toGoodRun.segment_mem hph a c
      rw [show ph.p_vaddr + (p.vaddr - ph.p_vaddr) = p.vaddr by omega] at hm
      unfold dynTag dynTable
      rw [hp]
      simp only [List.head?_cons, Option.bind_eq_bind, Option.bind_some, hm, d, Option.bind_none]
    · cases h3
  have hk : ∀ k, loadedSym f k = none := fun k => by unfold loadedSym; rw [h6]; rfl
  refine ⟨w, w', f, s, h, start_plain _ hl, h6, hk, fun T => ?_⟩
  obtain ⟨y, hy⟩ := Option.isSome_iff_exists.1 h2
  have := T.sym 1 y _ hy h1
  rw [hk] at this
  cases this

/-- **C100 is violated**: a program that uses a large object of a shared library cannot be started: the copy does not fit into the writable memory. -/
theorem C100_starts_violated : ∃ w w' f s, GoodLink Options.default (startOps [tznameOp 8192]) Sched.id w w' f s ∧ PlainTypes (startOps [tznameOp 8192]) ∧
    ZeroFillLast f ∧ ∀ libs : Libs, 8192 ≤ (libs.image b!"tzname").length → started f libs = none := by
  have hl : [tznameOp 8192] ∈ startMore := by simp [startMore]
  obtain ⟨w, w', f, s, o, g, h, S, hp⟩ := start_links _ hl (fun _ _ f _ => copiesTo f 8192 fun a _ => !writableAt f (a + 8191)) (by decide +kernel)
  obtain ⟨a, b, hw, r1, r2, r3, _, _, _, _, _, hm⟩ := start_copiesTo h S hp
  refine ⟨w, w', f, s, h, S.plain, S.zero, fun libs hlen => ?_⟩
  cases hst : started f libs with
  | none => rfl
  | some m =>
    have := (hm libs m hst).1 8191 (by rw [List.length_take]; omega)
    rw [this] at hw
    cases hw

/-- the program starts with the copied object if both symbols are there -/
theorem start_exists {l : List Op} {w w' : Writer} {f : Bytes} {s : List Section} {o g : EShdr}
    (h : GoodLink Options.default (startOps l) Sched.id w w' f s) (S : Started l f o g) (hl : ∀ op ∈ l, op = tznameOp 16 ∨ op = varsOp) {r1 r2 : ERela}
    (hd : relasOf (bodyNamed f b!".rela.dyn") = [r1, r2]) (h1 : r1.type ≠ 5) (hw : ∀ y, (symsOf (bodyNamed f b!".dynsym"))[r2.sym]? = some y → y.size = 16 ∧
      ∀ i, i < 16 → writableAt f (r2.offset + i) = true) {libs : Libs} (hp : (libs.addr b!"puts").isSome = true) (ht : (libs.addr b!"tzname").isSome = true) :
    ∃ m, started f libs = some m := by
  refine C100_starts_partial h S.plain S.zero (libs := libs) ?_ ?_
  · rintro n ⟨a, e, path, dd, b, he, _⟩
    have : Op.dynsym e n path dd ∈ startOps l := by rw [he]; simp
    simp only [startOps, List.mem_append, List.mem_cons, List.not_mem_nil, or_false, false_or, reduceCtorEq, Op.dynsym.injEq] at this
    rcases this with ⟨_, rfl, _⟩ | hm
    · exact hp
    · rcases hl _ hm with h | h
      · cases h; exact ht
      · cases h
  · intro r hr h5 y hy i hi
    rw [hd, List.mem_cons, List.mem_singleton] at hr
    rcases hr with rfl | rfl
    · exact absurd h5 h1
    · obtain ⟨e, hw⟩ := hw y hy
      exact hw i (by omega)

/-- **C102 is violated**: a program loads the address of `puts` through the GOT; it uses the 16 bytes of the data object `tzname` as well. When the program has
started, what it loads is not the address of `puts` but the second half of the contents of `tzname`. -/
theorem C102_got_violated : ∃ w w' f s o ea, GoodLink Options.default (startOps [tznameOp 16]) Sched.id w w' f s ∧ PlainTypes (startOps [tznameOp 16]) ∧
    ZeroFillLast f ∧ sectionsNamed f b!".text" = [o] ∧ RefersAt (startOps [tznameOp 16]) b!".text" 8 ⟨8, 2 ^ 32 + 42, -4⟩ (.named 8) ∧
    Refers (startOps [tznameOp 16]) (.named 8) b!"puts" ∧
    ∀ libs : Libs, (libs.addr b!"puts").isSome = true → (libs.addr b!"tzname").isSome = true → 16 ≤ (libs.image b!"tzname").length →
      ∃ m, started f libs = some m ∧ instrAt m (o.addr + 5) = some (.load 0 (ea : Nat)) ∧ wordAt m ea = some (fromLe (slice (libs.image b!"tzname") 8 8)) := by
  have hl : [tznameOp 16] ∈ startMore := by simp [startMore]
  obtain ⟨w, w', f, s, o, g, h, S, hp⟩ := start_links _ hl (fun w _ f s => copiesTo f 16 fun a b => (List.range 16).all (fun i => writableAt f (a + i)) && decide (a + 16 ≤ b) &&
    ((relasOf (bodyNamed f b!".rela.dyn"))[0]?.any fun (r : ERela) => r.type == 6) && decide ((secsNamed w s b!".got").map (·.addr) = [a])) (by decide +kernel)
  obtain ⟨a, b, hw, r1, r2, r3, hd, _, h2, ha, ⟨y, hy, hs⟩, hm⟩ := start_copiesTo h S hp
  rw [hd, h.toGoodRun.secsNamed_eq, S.got] at hw
  simp only [Bool.and_eq_true, decide_eq_true_eq, List.all_eq_true, List.mem_range, List.getElem?_cons_zero, Option.any_some, beq_iff_eq, List.map_cons, List.map_nil,
    List.cons.injEq, and_true] at hw
  obtain ⟨⟨⟨hw, hb⟩, h6⟩, hg⟩ := hw
  refine ⟨w, w', f, s, o, g.addr + 8, h, S.plain, S.zero, S.text, start_text _ hl _ (.tail _ (.head _)), start_refers _, fun libs hp ht hlen => ?_⟩
  obtain ⟨m, hst⟩ := start_exists h S (by simp) hd (by omega) (by intro y' hy'; rw [hy] at hy'; cases hy'; rw [ha]; exact ⟨hs, hw⟩) hp ht
  obtain ⟨_, hr⟩ := hm libs m hst
  have hr := readMem_sub (hr hb) (i := 8) (k := 8) (by rw [List.length_take]; omega)
  refine ⟨m, hst, h.toGoodRun.started_instr S.zero hst (name_of_named S.text).1 S.alloc S.fixed S.bits S.load, ?_⟩
  unfold wordAt
  rw [hg, hr, Option.map_some]
  congr 2
  simp only [slice, List.drop_take, List.take_take]
  rfl

/-- **C103 is violated**: a program has 16 bytes of initialised variables and uses the data object `tzname`. When the program has started, the variables hold
the contents of `tzname`. -/
theorem C103_data_violated : ∃ w w' f s o, GoodLink Options.default (startOps [tznameOp 16, varsOp]) Sched.id w w' f s ∧
    PlainTypes (startOps [tznameOp 16, varsOp]) ∧ ZeroFillLast f ∧ sectionsNamed f b!".data" = [o] ∧ o.size = 16 ∧
    bodyOf f o = [1, 2, 3, 4, 5, 6, 7, 8, 9, 10, 11, 12, 13, 14, 15, 16] ∧
    ∀ libs : Libs, (libs.addr b!"puts").isSome = true → (libs.addr b!"tzname").isSome = true → (libs.image b!"tzname").length = 16 →
      ∃ m, started f libs = some m ∧ readMem m o.addr o.size = some (libs.image b!"tzname") := by
  have hl : [tznameOp 16, varsOp] ∈ startMore := by simp [startMore]
  obtain ⟨w, w', f, s, _, g, h, S, hp⟩ := start_links _ hl (fun w _ f s => copiesTo f 16 fun a b => (List.range 16).all (fun i => writableAt f (a + i)) && decide (a + 16 ≤ b) &&
    ((relasOf (bodyNamed f b!".rela.dyn"))[0]?.any fun (r : ERela) => r.type == 6) && (match secsNamed w s b!".data" with
      | [o] => decide (o.addr = a ∧ o.size = 16 ∧ bodyOf f o = [1, 2, 3, 4, 5, 6, 7, 8, 9, 10, 11, 12, 13, 14, 15, 16])
      | _ => false)) (by decide +kernel)
  obtain ⟨a, b, hw, r1, r2, r3, hd, _, h2, ha, ⟨y, hy, hs⟩, hm⟩ := start_copiesTo h S hp
  rw [hd, h.toGoodRun.secsNamed_eq] at hw
  simp only [Bool.and_eq_true, decide_eq_true_eq, List.all_eq_true, List.mem_range, List.getElem?_cons_zero, Option.any_some, beq_iff_eq] at hw
  obtain ⟨⟨⟨hw, hb⟩, h6⟩, hg⟩ := hw
  split at hg
  · next o ho =>
    obtain ⟨g1, g2, g3⟩ := of_decide_eq_true hg
    refine ⟨w, w', f, s, o, h, S.plain, S.zero, ho, g2, g3, fun libs hp ht hlen => ?_⟩
    obtain ⟨m, hst⟩ := start_exists h S (by simp) hd (by omega) (by intro y' hy'; rw [hy] at hy'; cases hy'; rw [ha]; exact ⟨hs, hw⟩) hp ht
    obtain ⟨_, hr⟩ := hm libs m hst
    have hr := hr hb
    rw [List.take_of_length_le (by omega), hlen] at hr
    exact ⟨m, hst, by rw [g1, g2]; exact hr⟩
  · cases hg

end Dld
