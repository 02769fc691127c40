import Verif.Props.Fixed
import Verif.Props.Ctors
/-! # C55, C132: variables that start as zero -/
namespace Dld
open Writer Spec StringTable SymbolTable

variable {env : Env} {l : Linker} {sched : LinkSched} {loaded pre post pre' post' : List Loaded} {log : List Call} {w w' : Writer} {file : Bytes}
  {secs : List Section} {x x' : Loaded}

theorem pushesOf_first {n : Name} {ops : List Op} {p : SectionHeader × Option Bytes} {ps : List (SectionHeader × Option Bytes)} (h : pushesOf n ops = p :: ps) :
    ∃ a r b, ops = a ++ Op.push n p.1 p.2 r :: b ∧ pushesOf n a = [] := by
  induction ops with
  | nil => cases h
  | cons op ops ih =>
    have hskip : pushesOf n (op :: ops) = pushesOf n ops → pushesOf n [op] = [] → ∃ a r b, op :: ops = a ++ Op.push n p.1 p.2 r :: b ∧ pushesOf n a = [] := by
      intro h1 h2
      rw [h1] at h
      obtain ⟨a, r, b, e, ha⟩ := ih h
      refine ⟨op :: a, r, b, by rw [e]; rfl, ?_⟩
      rw [show op :: a = [op] ++ a from rfl, pushesOf_append, h2, ha]
      rfl
    cases op with
    | push m sh d r =>
      by_cases hm : m = n
      · subst hm
        simp only [pushesOf, if_true, List.cons.injEq] at h
        rw [← h.1]
        exact ⟨[], r, ops, rfl, rfl⟩
      · exact hskip (by simp [pushesOf, hm]) (by simp [pushesOf, hm])
    | sym => exact hskip rfl rfl
    | dynsym => exact hskip rfl rfl
    | reloc => exact hskip rfl rfl
    | needed => exact hskip rfl rfl

/-- all zero-fill sections of one name have the same reference -/
theorem Hist.zero_ref {opts : Options} {ops : List Op} (h : Hist opts ops w) (hc : CleanInputs ops) {n : Name} (hn : n ≠ []) {sh : SectionHeader} {r : SectionRef}
    (hp : Op.push n sh none r ∈ ops) : ∃ a sh' b, ops = a ++ Op.push n sh' none r :: b ∧ pushesOf n a = [] := by
  have hall : ∀ q ∈ pushesOf n ops, q.2 = none := by
    intro q hq
    obtain ⟨r', hr'⟩ := mem_pushesOf (n := n) (ops := ops) (p := q) hq
    exact (hc.nobits n q.1 q.2 r' hn hr').1 ((hc.same _ _ _ _ _ _ _ hp hr').1 ((hc.nobits n sh none r hn hp).2 rfl))
  obtain ⟨s, hs, hsp, _, p, ps, hps, _, _, _, _, hd⟩ := h.pushed_section hp (hc.foreign hp hn _)
  obtain ⟨w0, pn, h0, hI⟩ := h.winv
  have hlen : s.chunks.length = 1 := by
    have := congrArg List.length hd
    rw [List.length_map, List.length_cons, show ps.filterMap (·.2) = [] from List.filterMap_eq_nil_iff.2 fun q hq => hall q (by rw [hps]; exact .tail _ hq)] at this
    exact this
  have hzero : ∀ {sh d r'}, Op.push n sh d r' ∈ ops → r' = ⟨s.ptr, 0⟩ := by
    intro sh' d' r' hp'
    obtain ⟨s', hs', hsp', _⟩ := h.pushed_section hp' (hc.foreign hp' hn _)
    obtain ⟨⟨c, hcc, _⟩, i, h1, h2⟩ := h.cinv.push _ _ _ _ hp'
    obtain ⟨_, j, h3, h4⟩ := h.cinv.push _ _ _ _ hp
    have hij : i = j := by
      rw [Holds.keys hI.names] at h1 h3
      exact (List.getElem?_inj (List.getElem?_eq_some_iff.1 h1).1 hI.names.nodup).1 (h1.trans h3.symm)
    subst hij
    rw [h2] at h4
    have e : r'.ptr = s.ptr := (Option.some.inj h4).trans hsp.symm
    have hcc : w.chunkAt ⟨s.ptr, r'.chunk⟩ = some c := by rw [← e]; exact hcc
    rw [chunkAt_of_mem (hI.ptrs_nodup h0) hs] at hcc
    have := (List.getElem?_eq_some_iff.1 hcc).1
    have h0 : r'.chunk = 0 := by omega
    cases r'
    simp_all
  obtain ⟨a, r', b, e, ha⟩ := pushesOf_first hps
  have h1 := hzero hp
  have h2 := hzero (d := p.2) (sh := p.1) (r' := r') (by rw [e]; simp)
  rw [hall p (by rw [hps]; exact .head _), h2, ← h1] at e
  exact ⟨a, p.1, b, e, ha⟩

/-- the only definition of a name in a zero-fill section of whatever file gets the address of the output section plus its value in its file, as if the section of
its file were the first -/
theorem LinkRun.zero_symbol (R : LinkRun env l sched loaded log w w' file secs) (hc : CleanFiles env l) (e : loaded = pre ++ x :: post) {j : Nat} {s : Sym} {n m : Name}
    {sh : SectionHeader} (hd : Definition pre x post j s n) (S : SectionOf x s.st_shndx sh m) (h8 : sh.sh_type = 8) :
    ∃ o y, sectionsNamed file m = [o] ∧ symbolsNamed file n = [y] ∧ o.type = 8 ∧ y.value = o.addr + s.st_value ∧ (shdrs file)[y.shndx]? = some o := by
  obtain ⟨A, B, a, b, sr, d, y, hl, hl', hdat, honly, hk⟩ := R.calls.definition_call hc e hd S
  have hops : opsOf log = opsOf A ++ Op.sym s (some sr) n x.path y :: opsOf B := by rw [hl, opsOf_append]; rfl
  have hd0 : d = none := by
    unfold SectionBytes at hdat
    rw [if_pos h8] at hdat
    exact hdat
  subst hd0
  have hp : Op.push m sh none sr ∈ opsOf log := by rw [hl', opsOf_append]; exact List.mem_append_right _ (.head _)
  obtain ⟨a1, sh1, b1, hops', hfirst⟩ := R.good.run.hist.zero_ref R.good.good.clean S.named hp
  have hz : offsetOf m a1 = 0 := by unfold offsetOf; rw [hfirst]; rfl
  have htype : ∀ o, sectionsNamed file m = [o] → o.type = 8 := by
    intro o ho
    obtain ⟨t, ht, hsn, _, _, p, ps, hps, _, htp⟩ := R.good.toGoodRun.push_flags S.named hp
    rw [ho] at hsn
    rw [List.cons.inj hsn |>.1]
    show t.sh.sh_type = 8
    rw [htp]
    obtain ⟨r', hr'⟩ := mem_pushesOf (show p ∈ pushesOf m (opsOf log) by rw [hps]; simp)
    exact (R.good.good.clean.same _ _ _ _ _ _ _ hp hr').1 h8
  have hment : Mention (opsOf log) s (some sr) n := ⟨⟨_, _, by rw [hops]; exact List.mem_append_right _ List.mem_cons_self⟩, hd.symbol.2.2⟩
  have hatt : Attached (opsOf log) s (some sr) sr := by
    refine ⟨rfl, hd.absolute, fun sh0 d0 hp0 => ?_⟩
    have := R.good.run.hist.same_name hp0 hp rfl
    exact S.named this.symm
  rcases hk with hk | hk
  · obtain ⟨o, v, s', sec', h1, h2, h3, h4, h5⟩ := (C54_partial R.good hd.named hd.ordinary hment).1 sr m sh1 none _ _ hatt honly hops' S.named (.inr hfirst)
    exact ⟨o, v, h1, h2, htype o h1, by rw [h4, hz, hk s' sec' h3, Nat.add_zero], h5⟩
  · obtain ⟨o, v, h1, h2, h3, _, _, _, h4⟩ := C53_partial R.good hops hd.named hd.ordinary hk hops' S.named (.inr hfirst)
    exact ⟨o, v, h1, h2, htype o h1, by rw [h3, hz, Nat.add_zero], h4⟩

/-- **C55 is violated by every link** with two zero-fill sections of one name: variables of the two get addresses that differ as their places in the sections do.
Two variables at the same place in the zero-fill sections of two files share their memory. -/
theorem C55_every_violated (R : LinkRun env l sched loaded log w w' file secs) (hc : CleanFiles env l) (e : loaded = pre ++ x :: post) {j j' : Nat} {s s' : Sym}
    {n n' m : Name} {sh sh' : SectionHeader} (hd : Definition pre x post j s n) (S : SectionOf x s.st_shndx sh m) (h8 : sh.sh_type = 8)
    (e' : loaded = pre' ++ x' :: post') (hd' : Definition pre' x' post' j' s' n') (S' : SectionOf x' s'.st_shndx sh' m) (h8' : sh'.sh_type = 8) :
    ∃ y y', symbolsNamed file n = [y] ∧ symbolsNamed file n' = [y'] ∧ y.value + s'.st_value = y'.value + s.st_value ∧ (s.st_value = s'.st_value → y.value = y'.value) := by
  obtain ⟨o, y, h1, h2, _, h3, _⟩ := R.zero_symbol hc e hd S h8
  obtain ⟨o', y', g1, g2, _, g3, _⟩ := R.zero_symbol hc e' hd' S' h8'
  rw [h1] at g1
  cases g1
  exact ⟨y, y', h2, g2, by omega, by omega⟩

/-- **C132, sections**, what holds: when the program has started, a zero-fill section holds zeros, if zero-fill sections stand behind the sections with contents and
no copy of a data object reaches into it. -/
theorem C132_section_partial {opts : Options} {ops : List Op} {sched : Sched} (h : GoodLink opts ops sched w w' file secs) (hp : PlainTypes ops) (hz : ZeroFillLast file)
    {libs : Libs} {m : Mem} (hm : started file libs = some m) {e : EShdr} (he : e ∈ shdrs file) (hal : e.allocated = true) (ht : e.type = 8) {n : Name}
    (hn : Spec.nameOf file e = some n) (hnn : n ≠ b!".got" ∧ n ≠ b!".got.plt" ∧ n ≠ b!".copyrel") (hc : e.flags.testBit 0 = true → ClearOfCopies file e) :
    readMem m e.addr e.size = some (List.replicate e.size 0) := by
  have hmem : readMem (memAt file) e.addr e.size = some (List.replicate e.size 0) := by
    obtain ⟨i, hi⟩ := List.getElem?_of_mem he
    refine readMem_memory ?_
    rw [List.map_replicate]
    refine C85_zero_partial h.toGoodRun i e hi hal ht (by rw [hn]; simpa using hnn.2.2) fun j t hj htj hf => ?_
    unfold EShdr.fileSize
    by_cases h8 : t.type = 8
    · rw [if_pos h8]
    · exact absurd ht (hz i j e t hj hi htj hf.symm (by rw [hn]; simpa using hnn.2.2) h8)
  rw [← hmem]
  obtain ⟨got, gotPlt, S⟩ := h.toGoodRun.slots hz
  apply readMem_congr
  intro x h1 h2
  cases hw : e.flags.testBit 0 with
  | false => exact h.toGoodRun.started_fixed hm he hal hw h1 h2
  | true => exact h.started_frame (h.toGoodRun.loader_tables hp hz) S hm he hal hn hnn (hc hw) x h1 h2

/-- **C132, variables**, what holds: when the program has started, a variable that a file defines in a zero-fill section is zero. -/
theorem C132_variable_partial (R : LinkRun env l sched loaded log w w' file secs) (hc : CleanFiles env l) (hh : NoHashSections env l) (hz : ZeroFillLast file)
    {libs : Libs} {mem : Mem} (hm : started file libs = some mem) (e : loaded = pre ++ x :: post) {j : Nat} {s : Sym} {n m : Name} {sh : SectionHeader}
    (hd : Definition pre x post j s n) (S : SectionOf x s.st_shndx sh m) (h8 : sh.sh_type = 8) (hin : s.st_value + s.st_size ≤ sh.sh_size)
    {o : EShdr} (ho : sectionsNamed file m = [o]) (hal : o.allocated = true) (hcl : o.flags.testBit 0 = true → ClearOfCopies file o) :
    ∃ y, symbolsNamed file n = [y] ∧ readMem mem y.value s.st_size = some (List.replicate s.st_size 0) := by
  obtain ⟨o', y, h1, h2, h3, h4, _⟩ := R.zero_symbol hc e hd S h8
  rw [ho] at h1
  cases h1
  obtain ⟨n1, n2⟩ := name_of_named ho
  have hres : m ∉ reservedNames := (hc.names _ _ _ (R.calls.input (by rw [e]; simp)) ⟨List.mem_of_getElem? S.header, S.copied, S.name⟩).2.1
  have hnn : m ≠ b!".got" ∧ m ≠ b!".got.plt" ∧ m ≠ b!".copyrel" := by
    refine ⟨?_, ?_, ?_⟩ <;> (rintro rfl; exact hres (by decide))
  have h5 := C132_section_partial R.good (R.plainTypes hh) hz hm n1 hal h3 n2 hnn hcl
  have h6 := R.place_le e S ho
  have h7 := readMem_sub h5 (i := s.st_value) (k := s.st_size) (by omega)
  refine ⟨y, h2, ?_⟩
  rw [h4, h7]
  simp [slice]
  omega

/-! ## C132 is violated -/

/-- what a copy writes to a part of its place, if no later relocation writes there -/
theorem relocateAll_copy_part {libs : Libs} {pre post : List ERela} {r : ERela} {m m' : Mem} (ht : r.type = 5)
    (h : (pre ++ r :: post).foldlM (relocateMem file libs) m = some m') : ∃ s n, loadedSym file r.sym = some (s, n) ∧ ∀ i k, i + k ≤ ((libs.image n).take s.size).length →
      (∀ r' ∈ post, r'.offset + relWidth file r' ≤ r.offset + i ∨ r.offset + i + k ≤ r'.offset) →
      readMem m' (r.offset + i) k = some (slice ((libs.image n).take s.size) i k) := by
  rw [List.foldlM_append, Option.bind_eq_bind, Option.bind_eq_some_iff] at h
  obtain ⟨m1, _, h⟩ := h
  rw [List.foldlM_cons, Option.bind_eq_bind, Option.bind_eq_some_iff] at h
  obtain ⟨m2, h2, h⟩ := h
  unfold relocateMem at h2
  rw [if_neg (by omega), if_pos ht, Option.bind_eq_bind, Option.bind_eq_some_iff] at h2
  obtain ⟨⟨s, n⟩, hs, h2⟩ := h2
  obtain ⟨_, hr, _⟩ := writeMem_some h2
  refine ⟨s, n, hs, fun i k hik hd => ?_⟩
  rw [← readMem_sub hr hik]
  apply readMem_congr
  intro x hx1 hx2
  refine (relocateAll_frame h).1 x fun r' hr' => ?_
  have := hd r' hr'
  omega

/-- variables that start as zero -/
def clearOp : Op := .push b!".bss" (demoSh SHT_NOBITS 3 80 8) none ⟨17, 0⟩

theorem clear_good : goodOps (startOps [tznameOp 400, clearOp]) = true ∧ cleanSyms (startOps [tznameOp 400, clearOp]) = true := by decide +kernel

/-- **C132 is violated**: a program has 80 bytes of variables that start as zero and uses a data object `tzname` of 400 bytes. When the program has started, the
variables hold the last bytes of `tzname`. -/
theorem C132_zero_violated : ∃ w w' f s o, GoodLink Options.default (startOps [tznameOp 400, clearOp]) Sched.id w w' f s ∧
    PlainTypes (startOps [tznameOp 400, clearOp]) ∧ ZeroFillLast f ∧ sectionsNamed f b!".bss" = [o] ∧ o.allocated = true ∧ o.type = 8 ∧ o.size = 80 ∧
    ∀ libs : Libs, (libs.addr b!"puts").isSome = true → (libs.addr b!"tzname").isSome = true → (libs.image b!"tzname").length = 400 →
      ∃ m, started f libs = some m ∧ readMem m o.addr o.size = some (slice (libs.image b!"tzname") 320 80) := by
  obtain ⟨w, w', f, s, h, hp⟩ := GoodLink.of_runs (opts := .default) (P := fun w _ f s => zeroLast s && copiesTo f 400 fun a b => decide (b + 8 ≤ a + 320) &&
    (List.range 400).all (fun i => writableAt f (a + i)) && ((relasOf (bodyNamed f b!".rela.dyn"))[0]?.any fun (r : ERela) => r.type == 6) &&
    ((relasOf (bodyNamed f b!".rela.plt"))[0]?.any fun (r : ERela) => r.type == 7) && (match secsNamed w s b!".bss" with
      | [o] => decide (o.addr = a + 320 ∧ o.size = 80 ∧ o.type = 8 ∧ o.allocated = true)
      | _ => false)) Sched.id_valid clear_good.1 clear_good.2 (by decide +kernel)
  have hpl : PlainTypes (startOps [tznameOp 400, clearOp]) := .of_all (by decide +kernel)
  simp only [h.toGoodRun.secsNamed_eq] at hp
  rw [Bool.and_eq_true] at hp
  obtain ⟨hz, hp⟩ := hp
  have hz := h.toGoodRun.zeroFillLast hz
  unfold copiesTo at hp
  split at hp
  · next r1 r2 r3 hd hpt =>
    rw [hd, hpt] at hp
    simp only [Bool.and_eq_true, decide_eq_true_eq, Option.any_eq_true, beq_iff_eq, List.all_eq_true, List.mem_range, List.getElem?_cons_zero, Option.any_some] at hp
    obtain ⟨⟨⟨h2, hn⟩, y, hy, hs⟩, ⟨⟨⟨hb, hw⟩, h6⟩, h7⟩, ho⟩ := hp
    split at ho
    · next o ho' =>
      obtain ⟨o1, o2, o3, o4⟩ := of_decide_eq_true ho
      refine ⟨w, w', f, s, o, h, hpl, hz, ho', o4, o3, o2, fun libs hpu htz hlen => ?_⟩
      obtain ⟨m, hst⟩ := C100_starts_partial h hpl hz (libs := libs) (by
        rintro n ⟨a, e, path, dd, b, he, _⟩
        have : Op.dynsym e n path dd ∈ startOps [tznameOp 400, clearOp] := by rw [he]; simp
        simp [startOps, tznameOp, clearOp] at this
        rcases this with ⟨_, rfl, _⟩ | ⟨_, rfl, _⟩
        · exact hpu
        · exact htz) (by
        rw [hd]
        intro r hr h5 y' hy'
        rcases List.mem_cons.1 hr with rfl | hr
        · omega
        · rw [List.mem_singleton.1 hr] at hy' ⊢
          rw [hy] at hy'
          cases hy'
          rw [hs]
          exact hw)
      refine ⟨m, hst, ?_⟩
      have T := h.toGoodRun.loader_tables hpl hz
      have hls := T.sym _ y _ hy hn
      unfold started at hst
      rw [T.rela, T.plt, hd, hpt] at hst
      obtain ⟨s', n', e1, e2⟩ := relocateAll_copy_part (pre := [r1]) (post := [r3]) (r := r2) h2 hst
      rw [hls] at e1
      cases e1
      rw [hs, List.take_of_length_le (by omega)] at e2
      rw [o1, o2]
      refine e2 320 80 (by omega) fun r' hr' => ?_
      rw [List.mem_singleton.1 hr']
      left
      unfold relWidth
      rw [if_neg (by omega)]
      exact hb
    · cases ho
  · cases hp

/-! ## Concrete cases -/

/-- a file with code and a variable `u` at the second half of 16 bytes that start as zero -/
def zeroElf : ElfFile where
  isObjectFile := true
  sectionHeaders := [{}, { demoSh SHT_PROGBITS 6 4 4 with sh_name := 1 }, { demoSh SHT_NOBITS 3 16 8 with sh_name := 7 }]
  secName := AMap.get? [(0, []), (1, b!".text"), (7, b!".bss")]
  syms := [{}, { demoSym STT_OBJECT 2 8 8 with st_name := 1 }]
  symName := AMap.get? [(0, []), (1, b!"u")]
  shdrRelocs := []
  dynsyms := []
  dynName := fun _ => none

/-- another one, with a variable `v` and the entry point -/
def zeroMainElf : ElfFile := { zeroElf with
  syms := [{}, { demoSym STT_OBJECT 2 8 8 with st_name := 1 }, { demoSym STT_FUNC 1 0 4 with st_name := 3 }]
  symName := AMap.get? [(0, []), (1, b!"v"), (3, b!"_start")] }

def zeroBytes : Bytes := [0x90, 0x90, 0x90, 0xc3]
def zeroMainBytes : Bytes := [0x90, 0x90, 0xc3, 0xc3]

def zeroEnv : Env := tableEnv [(Linker.calleePath, zeroBytes), (mainPath, zeroMainBytes)] [(zeroBytes, zeroElf), (zeroMainBytes, zeroMainElf)] []

def zeroLinker : Linker := { options := Options.default, objects := [Linker.calleePath, mainPath], archives := [] }

theorem zero_clean : CleanFiles zeroEnv zeroLinker := CleanFiles.of_table (by decide +kernel)

def zeroFile : Loaded := ⟨.object 0, Linker.calleePath, zeroBytes, zeroElf⟩
def zeroMainFile : Loaded := ⟨.object 1, mainPath, zeroMainBytes, zeroMainElf⟩

theorem zero_run : ∃ log w w' f s, LinkRun zeroEnv zeroLinker LinkSched.id [zeroFile, zeroMainFile] log w w' f s ∧ ZeroFillLast f ∧
    relasOf (bodyNamed f b!".rela.dyn") = [] ∧ (match sectionsNamed f b!".bss" with | [o] => o.allocated | _ => false) = true := by
  obtain ⟨log, loaded, w, w', f, s, h1, h2, h3, hp⟩ := LinkRun.of_links (P := fun w _ f s => zeroLast s && decide (relasOf (bodyNamed f b!".rela.dyn") = []) &&
    match secsNamed w s b!".bss" with | [o] => o.allocated | _ => false) (fuel := 5) LinkSched.id_valid zero_clean (by decide +kernel)
  have e := Linker.loaded_objects h3.calls rfl
  subst e
  simp only [h3.good.toGoodRun.secsNamed_eq, Bool.and_eq_true, decide_eq_true_eq] at hp
  exact ⟨log, w, w', f, s, h3, h3.good.toGoodRun.zeroFillLast hp.1.1, hp.1.2, hp.2⟩

theorem zero_first : Definition [] zeroFile [zeroMainFile] 1 { demoSym STT_OBJECT 2 8 8 with st_name := 1 } b!"u" :=
  .of_check (by decide +kernel) (by decide) (by decide) ⟨rfl, rfl, by decide⟩ (by decide) (by decide)

theorem zero_second : Definition [zeroFile] zeroMainFile [] 1 { demoSym STT_OBJECT 2 8 8 with st_name := 1 } b!"v" :=
  .of_check (by decide +kernel) (by decide) (by decide) ⟨rfl, rfl, by decide⟩ (by decide) (by decide)

theorem zero_hashes : NoHashSections zeroEnv zeroLinker := by
  intro e sh n he hc
  have h1 := hc.1
  have h2 := he.of_table
  simp only [List.map_cons, List.map_nil, List.mem_cons, List.not_mem_nil, or_false] at h2
  have key : ∀ e ∈ [zeroElf, zeroMainElf], ∀ sh ∈ e.sectionHeaders, sh.sh_type ≠ 5 ∧ sh.sh_type ≠ 0x6ffffff6 := by decide +kernel
  exact key e (by simpa using h2) sh h1

/-- `C55_every_violated`: the variables `u` and `v` of the two files share their memory -/
example : ∃ log w w' f s y y', LinkRun zeroEnv zeroLinker LinkSched.id [zeroFile, zeroMainFile] log w w' f s ∧ symbolsNamed f b!"u" = [y] ∧ symbolsNamed f b!"v" = [y'] ∧
    y.value = y'.value := by
  obtain ⟨log, w, w', f, s, R, _⟩ := zero_run
  obtain ⟨y, y', h1, h2, _, h3⟩ := C55_every_violated R zero_clean (pre := []) rfl zero_first (m := b!".bss") ⟨rfl, by decide, rfl, by decide⟩ rfl
    (pre' := [zeroFile]) rfl zero_second ⟨rfl, by decide, rfl, by decide⟩ rfl
  exact ⟨log, w, w', f, s, y, y', R, h1, h2, h3 rfl⟩

/-- `C132_variable_partial`: `v` is zero when the program has started -/
example : ∃ log w w' f s, LinkRun zeroEnv zeroLinker LinkSched.id [zeroFile, zeroMainFile] log w w' f s ∧ ∀ libs : Libs, ∃ mem y, started f libs = some mem ∧
    symbolsNamed f b!"v" = [y] ∧ readMem mem y.value 8 = some (List.replicate 8 0) := by
  obtain ⟨log, w, w', f, s, R, hz, hr, ha⟩ := zero_run
  have hh := zero_hashes
  refine ⟨log, w, w', f, s, R, fun libs => ?_⟩
  obtain ⟨mem, hm⟩ := C114_starts_partial R hh hz (libs := libs) (fun p d s n hl => by obtain ⟨hp, _⟩ := hl; cases hp) (by rw [hr]; intro r hr; cases hr)
  split at ha
  · next o ho =>
    obtain ⟨y, h1, h2⟩ := C132_variable_partial R zero_clean hh hz hm (pre := [zeroFile]) rfl zero_second (m := b!".bss") ⟨rfl, by decide, rfl, by decide⟩ rfl (by decide) ho ha
      (fun _ r hr' => by rw [hr] at hr'; cases hr')
    exact ⟨mem, y, hm, h1, h2⟩
  · cases ha

end Dld
