import Verif.Spec.Ctors
import Verif.Props.Perms
/-! # C118: constructors and destructors -/
namespace Dld
open Writer Spec StringTable SymbolTable

variable {env : Env} {l : Linker} {sched : LinkSched} {loaded pre post pre' post' : List Loaded} {log : List Call} {w w' : Writer} {file : Bytes}
  {secs : List Section} {x x' : Loaded}

/-- the loader sees the entries of `.dynamic` before `DT_NULL` -/
theorem GoodRun.dynTable_eq {opts : Options} {ops : List Op} {sched : Sched} (G : GoodRun opts ops sched w w' file secs) (hpt : PlainTypes ops) (Z : ZeroFillLast file) :
    ∃ es, dynTable file = some es ∧ dynsOf (bodyNamed file b!".dynamic") = es ++ [(0, 0)] := by
  obtain ⟨d, hd, dn, ds, da, dm⟩ := G.own_mem Z (p := P.dynamic) (by cases opts.hashStyle <;> decide) (by decide) (by decide) (by decide)
  have dn : sectionsNamed file b!".dynamic" = [d] := dn
  obtain ⟨i, hi⟩ := List.getElem?_of_mem hd
  have hn : Spec.nameOf file d = some b!".dynamic" := (name_of_named dn).2
  obtain ⟨d', hd', hty, _, _, ⟨es, hes, hz⟩, _⟩ := C51_dynamic G hpt
  rw [dn] at hd'
  cases hd'
  obtain ⟨p, hp, hmem⟩ := C87_dynamic_partial G i d hi hn fun j t hj ht hf hn' => Z j i t d hj ht hi hf hn' (by rw [hty]; decide)
  have hb := (sectionNamed_one dn).2.1
  rw [← hb] at hes
  refine ⟨es, ?_, hes⟩
  unfold dynTable
  rw [hp]
  simp only [List.head?_cons, Option.bind_eq_bind, Option.bind_some, readMem_memory hmem, hes, Option.some.injEq]
  rw [List.takeWhile_append_of_pos (by simpa using hz)]
  simp

/-- a section of the output with a type that no section of the linker itself has comes from the files -/
theorem LinkRun.typed (R : LinkRun env l sched loaded log w w' file secs) {t : Section} (ht : t ∈ secs) {ty : Nat} (hty : t.sh.sh_type = ty)
    (hno : ∀ hs, ∀ o ∈ origins hs, o.2.2.2.1 ≠ ty) : ∃ n, Dld.nameOf w t = some n ∧ ∃ y ∈ loaded, ∃ s ∈ y.elf.copied, s.1.sh_type = ty ∧
      y.elf.secName s.1.sh_name = some n := by
  have G := R.good.toGoodRun
  obtain ⟨w0, pn, h0, hI⟩ := G.run.hist.winv
  obtain ⟨s, hs, e⟩ := G.run.origin G.good.flags ht
  have e2 : Dld.nameOf w t = Dld.nameOf w s := by unfold Dld.nameOf; rw [show t.sh.sh_name = s.sh.sh_name from congrArg (·.2.2.2.1) e]
  rcases hI.name_ptr h0 G.names hs with ⟨h1, _⟩ | ⟨_, n, hm, h2⟩
  · exfalso
    rcases G.run.known G.good.flags ht with ho | ⟨h3, _⟩
    · exact hno _ _ ho hty
    · rw [show t.ptr = s.ptr from congrArg (·.1) e] at h3
      omega
  · rw [← e2] at h2
    obtain ⟨h3, sh, d, r, h4⟩ := hI.pushed_name hm
    have hn : n ≠ [] := by rintro rfl; exact h3 (by cases l.options.hashStyle <;> decide)
    obtain ⟨t', ht', hsn, _, _, p, ps, hps, _, htp⟩ := G.push_flags hn h4
    obtain ⟨r', hr'⟩ := mem_pushesOf (show p ∈ pushesOf n (opsOf log) by rw [hps]; simp)
    obtain ⟨y, hy, j, g1, g2, g3, _⟩ := R.calls.push hr'
    have hte : t.sh.toSpec = t'.sh.toSpec := by
      have : t.sh.toSpec ∈ sectionsNamed file n := by
        rw [G.named]
        exact List.mem_map.2 ⟨t, List.mem_filter.2 ⟨ht, by simp [h2]⟩, rfl⟩
      rw [hsn] at this
      simpa using this
    have htt : t.sh.sh_type = t'.sh.sh_type := congrArg EShdr.type hte
    exact ⟨n, h2, y, hy, (p.1, j), ElfFile.mem_copied.2 ⟨g1, g2⟩, by rw [← htp, ← htt, hty], g3⟩

/-- a section lies inside the output section of its name -/
theorem LinkRun.place_le (R : LinkRun env l sched loaded log w w' file secs) (e : loaded = pre ++ x :: post) {i : Nat} {sh : SectionHeader} {n : Name}
    (S : SectionOf x i sh n) {o : EShdr} (ho : sectionsNamed file n = [o]) : placeOf pre x n i + sh.sh_size ≤ o.size := by
  have hx : x ∈ loaded := by rw [e]; simp
  obtain ⟨a, b, n', d, r, hl, hn', hd⟩ := R.calls.section_call hx S.header S.copied
  rw [S.name] at hn'
  cases hn'
  have hp : (⟨x.source, .section i, .push n sh d r⟩ : Call) ∈ log := by rw [hl]; simp
  obtain ⟨t, ht, hsn, hk, hsz, _⟩ := R.good.toGoodRun.push_flags S.named (List.mem_map.2 ⟨_, hp, rfl⟩)
  rw [ho] at hsn
  cases hsn
  have hops : opsOf log = opsOf a ++ Op.push n sh d r :: opsOf b := by rw [hl, opsOf_append]; rfl
  show _ ≤ t.sh.sh_size
  rw [hsz, ← R.calls.offset_eq (n := n) e hl, hops]
  simp only [offsetOf, pushesOf_append, pushesOf, if_true, List.map_append, List.sum_append, List.map_cons, List.sum_cons]
  omega

/-- if the sections of a type are those of one name, the output section of this name has this type -/
theorem LinkRun.one_type (R : LinkRun env l sched loaded log w w' file secs) (e : loaded = pre ++ x :: post) {ty : Nat} {m : Name} (ho : OneArray loaded ty m)
    {i : Nat} {sh : SectionHeader} (S : SectionOf x i sh m) {o : EShdr} (h1 : sectionsNamed file m = [o]) : o.type = ty := by
  have G := R.good.toGoodRun
  have hx : x ∈ loaded := by rw [e]; simp
  obtain ⟨a, b, n', dd, r, hl, hn', _⟩ := R.calls.section_call hx S.header S.copied
  rw [S.name] at hn'
  cases hn'
  obtain ⟨t, ht, hsn, _, _, p, ps, hps, _, htp⟩ := G.push_flags S.named (List.mem_map.2 ⟨⟨x.source, .section i, .push m sh dd r⟩, by rw [hl]; simp, rfl⟩)
  rw [h1] at hsn
  obtain ⟨r', hr'⟩ := mem_pushesOf (show p ∈ pushesOf m (opsOf log) by rw [hps]; simp)
  obtain ⟨y, hy, j, k1, k2, k3, _⟩ := R.calls.push hr'
  have := (ho y hy (p.1, j) (ElfFile.mem_copied.2 ⟨k1, k2⟩)).2 k3
  rw [List.cons.inj hsn |>.1]
  show t.sh.sh_type = ty
  rw [htp, this]

/-! ## C118 -/

/-- **C118, what holds.** If in the linked files the sections of the type of constructors (or destructors) are those of one name `m`, the loader finds
exactly one array of constructors (destructors): the output section `m`, which has the bytes of all of these sections. What is missing: sections of
several names (`C118_constructors_violated`). -/
theorem C118_array_partial (R : LinkRun env l sched loaded log w w' file secs) (hc : CleanFiles env l) (hh : NoHashSections env l) (hz : ZeroFillLast file)
    {ta ts ty : Nat} (hf : (ta, ts, ty) ∈ functionArrays) {m : Name} (ho : OneArray loaded ty m) (hi : m ≠ b!".init") (hf' : m ≠ b!".fini")
    (e : loaded = pre ++ x :: post) {i : Nat} {sh : SectionHeader} (S : SectionOf x i sh m) :
    ∃ o, sectionsNamed file m = [o] ∧ ArrayAt file ta ts o.addr o.size ∧ o.size = (loaded.map fun y => y.elf.bytesOf m).sum := by
  have G := R.good.toGoodRun
  have hx : x ∈ loaded := by rw [e]; simp
  obtain ⟨o, h1, h2, _⟩ := C111_contents R hc e S
  refine ⟨o, h1, ?_, h2⟩
  obtain ⟨es, g1, g2⟩ := G.dynTable_eq (R.plainTypes hh) hz
  obtain ⟨d, hd, _, _, _, _, _, harr, _⟩ := C51_dynamic G (R.plainTypes hh)
  rw [← (sectionNamed_one hd).2.1, g2] at harr
  have hno : ty ≠ 0 ∧ ta ≠ 0 ∧ ts ≠ 0 ∧ ∀ hs, ∀ o ∈ origins hs, o.2.2.2.1 ≠ ty := by
    simp only [functionArrays, List.mem_cons, Prod.mk.injEq, List.not_mem_nil, or_false] at hf
    rcases hf with ⟨rfl, rfl, rfl⟩ | ⟨rfl, rfl, rfl⟩ <;> refine ⟨by decide, by decide, by decide, fun hs => ?_⟩ <;> cases hs <;> decide
  have hot := R.one_type e ho S h1
  have hsel : ((shdrs file).filter fun s => s.type == ty && Spec.nameOf file s != some b!".init" && Spec.nameOf file s != some b!".fini") = [o] := by
    rw [← h1]
    unfold sectionsNamed
    apply List.filter_congr
    intro s hs
    have hr := G.run.reads G.good G.names G.fit
    rw [hr.shdrs] at hs
    obtain ⟨t, ht, rfl⟩ := List.mem_map.1 hs
    rw [G.run.reads_name G.good G.clean G.names G.fit ht]
    by_cases hty : t.sh.sh_type = ty
    · obtain ⟨n, hn, y, hy, u, hu, hut, hun⟩ := R.typed ht hty hno.2.2.2
      have := (ho y hy u hu).1 hut
      rw [hun] at this
      cases this
      rw [hn, show t.sh.toSpec.type = ty from hty]
      simp [hi, hf']
    · have hne : Dld.nameOf w t ≠ some m := by
        intro hn
        have : t.sh.toSpec ∈ sectionsNamed file m := by
          rw [G.named]
          exact List.mem_map.2 ⟨t, List.mem_filter.2 ⟨ht, by simp [hn]⟩, rfl⟩
        rw [h1] at this
        simp only [List.mem_singleton] at this
        exact hty ((congrArg EShdr.type this).trans hot)
      rw [show (t.sh.toSpec.type == ty) = false from beq_eq_false_iff_ne.2 hty, show (Dld.nameOf w t == some m) = false from beq_eq_false_iff_ne.2 hne]
      rfl
  have hsplit : ∀ k : Nat, k ≠ 0 → (es ++ [(0, 0)]).filter (fun e => e.1 == k) = es.filter fun e => e.1 == k := by
    intro k hk
    rw [List.filter_append]
    simp [Ne.symm hk]
  refine ⟨es, g1, ?_, ?_⟩
  · rw [← hsplit ta hno.2.1]
    have := harr (ta, ty, (·.addr)) (by simp only [functionArrays, List.mem_cons, Prod.mk.injEq, List.not_mem_nil, or_false] at hf
                                        rcases hf with ⟨rfl, rfl, rfl⟩ | ⟨rfl, rfl, rfl⟩ <;> simp)
    rw [this, hsel]
    rfl
  · rw [← hsplit ts hno.2.2.1]
    have := harr (ts, ty, (·.size)) (by simp only [functionArrays, List.mem_cons, Prod.mk.injEq, List.not_mem_nil, or_false] at hf
                                        rcases hf with ⟨rfl, rfl, rfl⟩ | ⟨rfl, rfl, rfl⟩ <;> simp)
    rw [this, hsel]
    rfl

/-- **C118, what holds, entries.** Under these conditions and if the sections are allocated: an entry of the array that a file fills with the address of a
definition, by a 64-bit relocation, holds this address when the program has started, and lies inside the array that the loader finds. -/
theorem C118_entry_partial (R : LinkRun env l sched loaded log w w' file secs) (hc : CleanFiles env l) (hh : NoHashSections env l) (hz : ZeroFillLast file)
    {libs : Libs} {mem : Mem} (hm : started file libs = some mem)
    {ta ts ty : Nat} (hf : (ta, ts, ty) ∈ functionArrays) {m n : Name} (ho : OneArray loaded ty m) (hi : m ≠ b!".init") (hf' : m ≠ b!".fini")
    (e : loaded = pre ++ x :: post) {i : Nat} {sh : SectionHeader} (S : SectionOf x i sh m) (ha : sh.sh_flags.testBit 1 = true) (hs : AgreeOn loaded m sh.sh_flags)
    {rel : InReloc} {s : Sym} (hr : Reference x i m rel s) (ht : relType rel.rela = 1) (hb : rel.r_offset + 8 ≤ sh.sh_size)
    (hn : x.elf.symName s.st_name = some n) (h3 : s.st_info % 16 ≠ 3) (hown : OwnName env l n)
    (e' : loaded = pre' ++ x' :: post') {j : Nat} {d : Sym} {m' : Name} {sh' : SectionHeader} (hd : Definition pre' x' post' j d n)
    (S' : SectionOf x' d.st_shndx sh' m') (h8 : sh'.sh_type ≠ 8) :
    ∃ a k o', ArrayAt file ta ts a k ∧ sectionsNamed file m' = [o'] ∧ placeOf pre x m i + rel.r_offset + 8 ≤ k ∧
      ∀ o, sectionsNamed file m = [o] → ClearOfCopies file o →
        (wordAt mem (a + placeOf pre x m i + rel.r_offset)).map (signed 8) = some ((o'.addr + placeOf pre' x' m' d.st_shndx + d.st_value : Nat) + rel.rela.r_addend) := by
  have hx : x ∈ loaded := by rw [e]; simp
  obtain ⟨o, h1, h2, h4⟩ := C118_array_partial R hc hh hz hf ho hi hf' e S
  obtain ⟨o1, o', g1, g2, g3⟩ := C112_reference R hc e hr hn h3 hown e' hd S' (.inl h8)
  obtain ⟨o2, p1, p2, p3⟩ := C115_permissions_partial R e S ha hs
  rw [h1] at g1 p1
  cases g1
  cases p1
  have hsz : sh.sh_type ≠ 8 := by
    obtain ⟨sh0, S0, h0⟩ := hr.home
    have := S0.header
    rw [S.header] at this
    cases this
    exact h0
  obtain ⟨o3, q1, _, q2⟩ := C111_contents R hc e S
  rw [h1] at q1
  cases q1
  obtain ⟨_, q3, _⟩ := q2 hsz
  have hty : sh.sh_type = ty := (ho x hx (sh, i) (ElfFile.mem_copied.2 ⟨S.header, S.copied⟩)).2 S.name
  have hle : placeOf pre x m i + rel.r_offset + 8 ≤ o.size := by
    have := R.place_le e S h1
    omega
  refine ⟨_, _, o', h2, g2, hle, fun o3 q1 hcl => ?_⟩
  rw [h1] at q1
  cases q1
  have hot : o.type ≠ 8 := by rw [R.one_type e ho S h1, ← hty]; exact hsz
  have hres : m ∉ reservedNames := by
    obtain ⟨a, b, n', d, r, hl, hn', hd⟩ := R.calls.section_call hx S.header S.copied
    rw [S.name] at hn'
    cases hn'
    exact R.good.good.clean.names m sh d r (List.mem_map.2 ⟨_, by rw [hl]; simp; exact .inr (.inl rfl), rfl⟩)
  have hnn : m ≠ b!".got" ∧ m ≠ b!".got.plt" ∧ m ≠ b!".copyrel" := by
    refine ⟨?_, ?_, ?_⟩ <;> (rintro rfl; exact hres (by decide))
  have hal : o.allocated = true := p2.2.1.trans ha
  have hmem := C103_contents_partial R.good (R.plainTypes hh) hz hm (name_of_named h1).1 hal hot (name_of_named h1).2 hnn fun _ => hcl
  have hw := readMem_sub hmem (i := placeOf pre x m i + rel.r_offset) (k := 8) hle
  have hv := g3.abs64 ht
  unfold wordAt
  rw [Nat.add_assoc, hw]
  simp only [Option.map_some, Option.some.injEq]
  exact hv

/-! ### A concrete link -/

/-- a program with one constructor -/
def ctorElf : ElfFile where
  isObjectFile := true
  sectionHeaders := [{}, { demoSh SHT_PROGBITS 6 8 4 with sh_name := 1 }, { demoSh 14 3 8 8 with sh_name := 7, sh_offset := 8 },
    { demoSh SHT_RELA 0 24 8 with sh_name := 19, sh_info := 2 }]
  secName := AMap.get? [(0, []), (1, b!".text"), (7, b!".init_array"), (19, b!".rela.init_array")]
  syms := [{}, { demoSym STT_FUNC 1 0 4 with st_name := 1 }, { demoSym STT_FUNC 1 4 4 with st_name := 8 }]
  symName := AMap.get? [(0, []), (1, b!"_start"), (8, b!"setup")]
  shdrRelocs := [(3, [⟨0, some 0, 2, R_X86_64_64⟩])]
  dynsyms := []
  dynName := fun _ => none

/-- a program with a constructor and a constructor with a priority, as compilers emit them -/
def prioElf : ElfFile where
  isObjectFile := true
  sectionHeaders := [{}, { demoSh SHT_PROGBITS 6 8 4 with sh_name := 1 }, { demoSh 14 3 8 8 with sh_name := 7, sh_offset := 8 },
    { demoSh SHT_RELA 0 24 8 with sh_name := 19, sh_info := 2 }, { demoSh 14 3 8 8 with sh_name := 40, sh_offset := 16 },
    { demoSh SHT_RELA 0 24 8 with sh_name := 60, sh_info := 4 }]
  secName := AMap.get? [(0, []), (1, b!".text"), (7, b!".init_array"), (19, b!".rela.init_array"), (40, b!".init_array.00100"), (60, b!".rela.init_array.00100")]
  syms := [{}, { demoSym STT_FUNC 1 0 4 with st_name := 1 }, { demoSym STT_FUNC 1 4 4 with st_name := 8 }]
  symName := AMap.get? [(0, []), (1, b!"_start"), (8, b!"setup")]
  shdrRelocs := [(3, [⟨0, some 0, 2, R_X86_64_64⟩]), (5, [⟨0, some 0, 2, R_X86_64_64⟩])]
  dynsyms := []
  dynName := fun _ => none

def ctorBytes : Bytes := List.replicate 8 0xc3 ++ List.replicate 8 0
def prioBytes : Bytes := List.replicate 8 0xc3 ++ List.replicate 16 0

def ctorEnv : Env := tableEnv [(mainPath, ctorBytes), (Linker.calleePath, prioBytes)] [(ctorBytes, ctorElf), (prioBytes, prioElf)] []

def ctorLinker : Linker := { options := Options.default, objects := [mainPath], archives := [] }
def prioLinker : Linker := { options := Options.default, objects := [Linker.calleePath], archives := [] }

theorem ctor_clean : CleanFiles ctorEnv ctorLinker := CleanFiles.of_table (by decide +kernel)
theorem prio_clean : CleanFiles ctorEnv prioLinker := CleanFiles.of_table (by decide +kernel)

def ctorFile : Loaded := ⟨.object 0, mainPath, ctorBytes, ctorElf⟩
def prioFile : Loaded := ⟨.object 0, Linker.calleePath, prioBytes, prioElf⟩

theorem ctor_hashes (l : Linker) : NoHashSections ctorEnv l := by
  intro e sh n he hc
  have h1 := hc.1
  have h2 := he.of_table
  simp only [List.map_cons, List.map_nil, List.mem_cons, List.not_mem_nil, or_false] at h2
  have key : ∀ e ∈ [ctorElf, prioElf], ∀ sh ∈ e.sectionHeaders, sh.sh_type ≠ 5 ∧ sh.sh_type ≠ 0x6ffffff6 := by decide +kernel
  exact key e (by simpa using h2) sh h1

theorem ctor_links : links ctorEnv ctorLinker LinkSched.id 5 (fun _ _ f s => zeroLast s && (relasOf (bodyNamed f b!".rela.dyn")).isEmpty) = true := by decide +kernel

theorem prio_links : links ctorEnv prioLinker LinkSched.id 5 (fun w _ f s => zeroLast s && (match secsNamed w s b!".init_array", secsNamed w s b!".init_array.00100" with
    | [o], [o'] => decide (∀ e ∈ dynsOf (bodyNamed f b!".dynamic"), ∀ e' ∈ dynsOf (bodyNamed f b!".dynamic"), e.1 = 25 → e'.1 = 27 →
        ¬ (e.2 ≤ o.addr ∧ o.addr + 8 ≤ e.2 + e'.2 ∧ e.2 ≤ o'.addr ∧ o'.addr + 8 ≤ e.2 + e'.2))
    | _, _ => false)) = true := by decide +kernel

/-- **C118** is violated: a program has a constructor in `.init_array` and one in `.init_array.00100`; both sections are arrays of constructors. No array that the
loader could take from the dynamic section has both. -/
theorem C118_constructors_violated : ∃ env l sched x log w w' file secs o o' es, LinkRun env l sched [x] log w w' file secs ∧ CleanFiles env l ∧
    (∃ i j sh sh' rel rel' s s', SectionOf x i sh b!".init_array" ∧ sh.sh_type = 14 ∧ sh.sh_size = 8 ∧ SectionOf x j sh' b!".init_array.00100" ∧ sh'.sh_type = 14 ∧ sh'.sh_size = 8 ∧
      Reference x i b!".init_array" rel s ∧ Reference x j b!".init_array.00100" rel' s') ∧
    sectionsNamed file b!".init_array" = [o] ∧ sectionsNamed file b!".init_array.00100" = [o'] ∧ dynTable file = some es ∧
    ∀ a n, (25, a) ∈ es → (27, n) ∈ es → ¬ (a ≤ o.addr ∧ o.addr + 8 ≤ a + n ∧ a ≤ o'.addr ∧ o'.addr + 8 ≤ a + n) := by
  obtain ⟨log, loaded, w, w', f, s, _, _, h3, hp⟩ := LinkRun.of_links LinkSched.id_valid prio_clean prio_links
  have e := Linker.loaded_objects h3.calls rfl
  subst e
  rw [Bool.and_eq_true] at hp
  obtain ⟨hz, hp⟩ := hp
  simp only [h3.good.toGoodRun.secsNamed_eq] at hp
  split at hp
  · next o o' ho ho' =>
    have hp := of_decide_eq_true hp
    obtain ⟨es, g1, g2⟩ := h3.good.toGoodRun.dynTable_eq (h3.plainTypes (ctor_hashes _)) (h3.good.toGoodRun.zeroFillLast hz)
    rw [g2] at hp
    refine ⟨ctorEnv, prioLinker, LinkSched.id, prioFile, log, w, w', f, s, o, o', es, h3, prio_clean,
      ⟨2, 4, _, _, ⟨0, some 0, 2, R_X86_64_64⟩, ⟨0, some 0, 2, R_X86_64_64⟩, _, _, ⟨rfl, by decide, rfl, by decide⟩, rfl, rfl, ⟨rfl, by decide, rfl, by decide⟩, rfl, rfl,
        ⟨⟨_, ⟨rfl, by decide, rfl, by decide⟩, by decide⟩, ⟨by decide, 0, 0, by decide⟩, by unfold ElfFile.RelocsApart; decide +kernel, rfl⟩,
        ⟨⟨_, ⟨rfl, by decide, rfl, by decide⟩, by decide⟩, ⟨by decide, 1, 0, by decide⟩, by unfold ElfFile.RelocsApart; decide +kernel, rfl⟩⟩, ho, ho', g1, ?_⟩
    intro a n ha hn
    exact hp (25, a) (List.mem_append_left _ ha) (27, n) (List.mem_append_left _ hn) rfl rfl
  · cases hp

theorem ctor_definition : Definition [] ctorFile [] 2 { demoSym STT_FUNC 1 4 4 with st_name := 8 } b!"setup" := by
  have one : ∀ y ∈ [ctorFile], ∀ j s, SymbolOf y j s b!"setup" → y = ctorFile ∧ j = 2 ∧ s = { demoSym STT_FUNC 1 4 4 with st_name := 8 } := by
    rintro y hy j s ⟨h1, h2, h3⟩
    rw [List.mem_singleton.1 hy] at h1 h2 ⊢
    refine ⟨rfl, ?_⟩
    match j, h1 with
    | 0, h1 => cases h1; cases h2
    | 1, h1 => cases h1; cases h2
    | 2, h1 => cases h1; exact ⟨rfl, rfl⟩
    | j + 3, h1 => cases h1
  refine ⟨by decide, by decide, ⟨rfl, rfl, by decide⟩, by decide, by decide, ?_, .inr ⟨?_, ?_, ?_⟩⟩
  · intro y hy j' s' h h0
    exact ⟨(one y hy j' s' h).1, (one y hy j' s' h).2.1⟩
  · intro y hy j' s' h
    rw [(one y hy j' s' h).2.2]
    decide
  · intro y hy; cases hy
  · intro j' s' h hj
    have := (one _ (.head _) j' s' h).2.1
    omega

/-- with one constructor: the loader finds an array of 8 bytes, and its entry is the address of the constructor, 4 bytes into the code -/
example : ∃ log w w' f s, LinkRun ctorEnv ctorLinker LinkSched.id [ctorFile] log w w' f s ∧ ∀ libs : Libs, ∃ mem a o, started f libs = some mem ∧
    ArrayAt f 25 27 a 8 ∧ sectionsNamed f b!".text" = [o] ∧ (wordAt mem a).map (signed 8) = some ((o.addr + 4 : Nat) : Int) := by
  obtain ⟨log, loaded, w, w', f, s, _, _, h3, hp⟩ := LinkRun.of_links LinkSched.id_valid ctor_clean ctor_links
  have e := Linker.loaded_objects h3.calls rfl
  subst e
  rw [Bool.and_eq_true, List.isEmpty_iff] at hp
  obtain ⟨hz, hp⟩ := hp
  have hz := h3.good.toGoodRun.zeroFillLast hz
  refine ⟨log, w, w', f, s, h3, fun libs => ?_⟩
  obtain ⟨m, hm⟩ := C114_starts_partial h3 (ctor_hashes _) hz (libs := libs) (by rintro p s s' n ⟨h1, _⟩; cases h1) (fun r hr => by rw [hp] at hr; cases hr)
  have one : ∀ y ∈ [ctorFile], ∀ t ∈ y.elf.copied, t.1.sh_type = 14 ↔ y.elf.secName t.1.sh_name = some b!".init_array" := by decide +kernel
  have S : SectionOf ctorFile 2 { demoSh 14 3 8 8 with sh_name := 7, sh_offset := 8 } b!".init_array" := ⟨rfl, by decide, rfl, by decide⟩
  have agree : ∀ y ∈ [ctorFile], ∀ t ∈ y.elf.named b!".init_array", t.1.sh_flags = 3 := by decide +kernel
  have agree' : AgreeOn [ctorFile] b!".init_array" 3 := fun y hy t ht => by rw [agree y hy t ht]; exact ⟨rfl, rfl, rfl⟩
  obtain ⟨o, h1, h2, h4⟩ := C118_array_partial h3 ctor_clean (ctor_hashes _) hz (ta := 25) (ts := 27) (ty := 14) (by decide) one (by decide) (by decide) (pre := []) (post := []) rfl S
  obtain ⟨a, k, o', g1, g2, g3, g4⟩ := C118_entry_partial h3 ctor_clean (ctor_hashes _) hz hm (ta := 25) (ts := 27) (ty := 14) (by decide) one (by decide) (by decide) (pre := []) (post := []) rfl S
    (by decide) agree' (rel := ⟨0, some 0, 2, R_X86_64_64⟩) ⟨⟨_, S, by decide⟩, ⟨by decide, 0, 0, by decide⟩, by unfold ElfFile.RelocsApart; decide +kernel, rfl⟩ (by decide) (by decide)
    (n := b!"setup") rfl (by decide) (.inr ⟨ctorFile, .head _, _, List.mem_of_getElem? (i := 2) rfl, rfl, by decide, by decide, by decide⟩) (pre' := []) (post' := []) rfl ctor_definition
    (m' := b!".text") ⟨rfl, by decide, rfl, by decide⟩ (by decide)
  have ha : a = o.addr ∧ k = o.size := by
    obtain ⟨es, p1, p2, p3⟩ := h2
    obtain ⟨es', q1, q2, q3⟩ := g1
    rw [p1] at q1
    cases q1
    rw [p2] at q2
    rw [p3] at q3
    simp only [List.cons.injEq, Prod.mk.injEq, and_true, true_and] at q2 q3
    exact ⟨q2.symm, q3.symm⟩
  obtain ⟨rfl, rfl⟩ := ha
  have h4 : o.size = 8 := h4
  refine ⟨m, o.addr, o', hm, h4 ▸ h2, g2, ?_⟩
  have := g4 o h1 (fun r hr => by rw [hp] at hr; cases hr)
  have this : (wordAt m o.addr).map (signed 8) = some ((o'.addr + 4 : Nat) + 0 : Int) := this
  rw [this, Int.add_zero]

end Dld
