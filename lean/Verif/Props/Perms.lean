import Verif.Lemmas.Perms
import Verif.Spec.Perms
import Verif.Props.Files
/-! # C115–C117: permissions and kinds of segments -/
namespace Dld
open Writer Spec StringTable SymbolTable

variable {env : Env} {l : Linker} {sched : LinkSched} {loaded pre post : List Loaded} {log : List Call} {w w' : Writer} {file : Bytes}
  {secs : List Section} {x : Loaded}

/-- the flags of the section behind a push are those of the first push of its name -/
theorem GoodRun.push_flags {opts : Options} {ops : List Op} {sched : Sched} (G : GoodRun opts ops sched w w' file secs) {n : Name} (hn : n ≠ []) {sh : SectionHeader}
    {d : Option Bytes} {r : SectionRef} (hp : Op.push n sh d r ∈ ops) :
    ∃ t ∈ secs, sectionsNamed file n = [t.sh.toSpec] ∧ P.first ≤ t.ptr ∧ t.sh.sh_size = offsetOf n ops ∧ ∃ p ps, pushesOf n ops = p :: ps ∧ t.sh.sh_flags = p.1.sh_flags ∧
      t.sh.sh_type = p.1.sh_type := by
  have hf := G.good.clean.foreign hp hn opts.hashStyle
  obtain ⟨t, ht, htp, hsn⟩ := G.push_section hp
  have hbase : ∀ p ∈ [P.got, P.plt], p ∈ (baseIdents opts.hashStyle).map (·.1) := by cases opts.hashStyle <;> decide
  obtain ⟨g, hg, pg, _⟩ := G.own (hbase P.got (by simp))
  obtain ⟨pl, hpl, ppl, _⟩ := G.own (hbase P.plt (by simp))
  obtain ⟨s, hs, hsp, hfirst, p, ps, hps, hsz, _, hty, hfl, _⟩ := G.run.hist.pushed_section hp hf
  obtain ⟨s0, hs0, hs0p, _, ⟨e1, e2, e3, _⟩, _⟩ := G.run.pushed G.good.flags G.names ht (by rw [htp, ← hsp]; exact hfirst) hg pg hpl ppl
  obtain ⟨w0, pn, h0, hI⟩ := G.run.hist.winv
  have hss : s0 = s := eq_of_ptr (hI.ptrs_nodup h0) hs0 hs (by rw [hs0p, htp, hsp])
  subst hss
  exact ⟨t, ht, hsn, by rw [htp, ← hsp]; exact hfirst, by rw [← e3, hsz]; rfl, p, ps, hps, by rw [← e1, hfl], by rw [← e2, hty]⟩

/-- an allocated section of the output is mapped with its permissions -/
theorem GoodRun.mapped {opts : Options} {ops : List Op} {sched : Sched} (G : GoodRun opts ops sched w w' file secs) {t : Section} (ht : t ∈ secs) (hk : P.first ≤ t.ptr)
    (ha : t.sh.sh_flags.testBit 1 = true) {k : Nat} (h : k < t.sh.sh_size) : MappedFor file (t.sh.sh_addr + k) t.sh.sh_flags := by
  obtain ⟨i, hi⟩ := List.getElem?_of_mem ht
  obtain ⟨ph, hph, h1, _, h3, _, h4, h5, h6⟩ := C41_covered_partial G.run G.good.flags i t hi ha
  have hc : t.kind ≠ .copyRel := fun hc => by
    rw [(G.run.known G.good.flags ht).copyRel_kind.1 hc] at hk
    exact absurd hk (by decide)
  refine ⟨ph.toSpec, G.segment hph (by omega) (by have := h3 hc; omega), h4, Bool.eq_iff_iff.2 h5, Bool.eq_iff_iff.2 h6⟩

/-! ## C115 -/

/-- **C115, what holds.** If all linked files give the same permissions to the sections of a name, every byte of every such section that is allocated is
mapped into memory readable, and writable or executable exactly if the section asks for it. What is missing: the permissions of the first section
of a name are used for all (`C115_permissions_violated`). -/
theorem C115_permissions_partial (R : LinkRun env l sched loaded log w w' file secs) (e : loaded = pre ++ x :: post) {i : Nat}
    {sh : SectionHeader} {n : Name} (S : SectionOf x i sh n) (ha : sh.sh_flags.testBit 1 = true) (hs : AgreeOn loaded n sh.sh_flags) :
    ∃ o, sectionsNamed file n = [o] ∧ SamePerms o.flags sh.sh_flags ∧
      ∀ b < sh.sh_size, MappedFor file (o.addr + placeOf pre x n i + b) sh.sh_flags := by
  have hx : x ∈ loaded := by rw [e]; simp
  obtain ⟨a, b, n', d, r, hl, hn', hd⟩ := R.calls.section_call hx S.header S.copied
  rw [S.name] at hn'
  cases hn'
  have hp : (⟨x.source, .section i, .push n sh d r⟩ : Call) ∈ log := by rw [hl]; simp
  obtain ⟨t, ht, hsn, hk, hsz, p, ps, hps, hfl, _⟩ := R.good.toGoodRun.push_flags S.named (List.mem_map.2 ⟨_, hp, rfl⟩)
  have hops : opsOf log = opsOf a ++ Op.push n sh d r :: opsOf b := by rw [hl, opsOf_append]; rfl
  have hsame : SamePerms t.sh.sh_flags sh.sh_flags := by
    obtain ⟨r', hr'⟩ := mem_pushesOf (show p ∈ pushesOf n (opsOf log) by rw [hps]; simp)
    obtain ⟨y, hy, j, h1, h2, h3, _⟩ := R.calls.push hr'
    rw [hfl]
    exact hs y hy (p.1, j) (List.mem_filter.2 ⟨ElfFile.mem_copied.2 ⟨h1, h2⟩, by simpa using h3⟩)
  refine ⟨_, hsn, hsame, fun k hk' => ?_⟩
  have hle : placeOf pre x n i + sh.sh_size ≤ t.sh.sh_size := by
    rw [hsz, ← R.calls.offset_eq (n := n) e hl, hops]
    simp only [offsetOf, pushesOf_append, pushesOf, if_true, List.map_append, List.sum_append, List.map_cons, List.sum_cons]
    omega
  obtain ⟨p, h1, h2, h3, h4⟩ := R.good.toGoodRun.mapped ht hk (by rw [hsame.2.1]; exact ha) (k := placeOf pre x n i + k) (by omega)
  refine ⟨p, ?_, h2, by rw [h3, hsame.1], by rw [h4, hsame.2.2]⟩
  rw [← h1]
  show segmentAt file (t.sh.sh_addr + placeOf pre x n i + k) = _
  rw [Nat.add_assoc]

/-- an object file whose `.text` holds constants only -/
def constElf : ElfFile where
  isObjectFile := true
  sectionHeaders := [{}, { demoSh SHT_PROGBITS 2 4 4 with sh_name := 1 }]
  secName := AMap.get? [(0, []), (1, b!".text")]
  syms := [{}]
  symName := AMap.get? [(0, [])]
  shdrRelocs := []
  dynsyms := []
  dynName := fun _ => none

/-- an object file with code, data, thread-local data and the mark that it needs no executable stack -/
def codeElf : ElfFile where
  isObjectFile := true
  sectionHeaders := [{}, { demoSh SHT_PROGBITS 6 4 4 with sh_name := 1 }, { demoSh SHT_PROGBITS 3 4 4 with sh_name := 7 },
    { demoSh SHT_PROGBITS 0x403 4 4 with sh_name := 13 }, { demoSh SHT_PROGBITS 0 0 1 with sh_name := 20 }]
  secName := AMap.get? [(0, []), (1, b!".text"), (7, b!".data"), (13, b!".tdata"), (20, b!".note.GNU-stack")]
  syms := [{}, { demoSym STT_FUNC 1 0 4 with st_name := 1 }]
  symName := AMap.get? [(0, []), (1, b!"_start")]
  shdrRelocs := []
  dynsyms := []
  dynName := fun _ => none

def mixEnv : Env := tableEnv [(Linker.calleePath, b!"0000"), (mainPath, b!"code")] [(b!"0000", constElf), (b!"code", codeElf)] []

def mixLinker : Linker := { options := Options.default, objects := [Linker.calleePath, mainPath], archives := [] }

def codeLinker : Linker := { options := Options.default, objects := [mainPath], archives := [] }

theorem mix_clean : CleanFiles mixEnv mixLinker := CleanFiles.of_table (by decide +kernel)
theorem code_clean : CleanFiles mixEnv codeLinker := CleanFiles.of_table (by decide +kernel)

def constFile : Loaded := ⟨.object 0, Linker.calleePath, b!"0000", constElf⟩
def codeFile (i : Nat) : Loaded := ⟨.object i, mainPath, b!"code", codeElf⟩

theorem mix_links : links mixEnv mixLinker LinkSched.id 5 (fun w _ f s => match secsNamed w s b!".text" with
    | [o] => decide ((decodeEhdr f).entry = o.addr + 4) && (List.range 4).all fun b => (segmentAt f (o.addr + 4 + b)).any fun p => !p.flags.testBit 0
    | _ => false) = true := by decide +kernel

theorem code_links : links mixEnv codeLinker LinkSched.id 5 (fun _ _ _ _ => true) = true := by decide +kernel

/-- **C115** is violated: if the first `.text` is not executable, none is. The code of the second file, the entry point of the program included, is in
memory that may not be executed. -/
theorem C115_permissions_violated : ∃ env l sched loaded log w w' file secs pre x post i sh n o, LinkRun env l sched loaded log w w' file secs ∧ CleanFiles env l ∧
    loaded = pre ++ x :: post ∧ SectionOf x i sh n ∧ sh.sh_size = 4 ∧ sh.sh_flags.testBit 1 = true ∧ sh.sh_flags.testBit 2 = true ∧ sectionsNamed file n = [o] ∧
      (decodeEhdr file).entry = o.addr + placeOf pre x n i ∧
      ∀ b < 4, ∃ p, segmentAt file (o.addr + placeOf pre x n i + b) = some p ∧ p.flags.testBit 0 = false := by
  obtain ⟨log, loaded, w, w', f, s, _, _, h3, hp⟩ := LinkRun.of_links LinkSched.id_valid mix_clean mix_links
  have e := Linker.loaded_objects h3.calls rfl
  subst e
  simp only [h3.good.toGoodRun.secsNamed_eq] at hp
  split at hp
  · next o ho =>
    simp only [Bool.and_eq_true, decide_eq_true_eq, List.all_eq_true, List.mem_range, Option.any_eq_true, Bool.not_eq_true'] at hp
    exact ⟨mixEnv, mixLinker, LinkSched.id, _, log, w, w', f, s, [constFile], codeFile 1, [], 1, _, b!".text", o, h3, mix_clean, rfl, ⟨rfl, by decide, rfl, by decide⟩,
      rfl, by decide, by decide, ho, hp.1, hp.2⟩
  · cases hp

theorem code_run : ∃ log w w' f s, LinkRun mixEnv codeLinker LinkSched.id [codeFile 0] log w w' f s := by
  obtain ⟨log, loaded, w, w', f, s, _, _, h3, _⟩ := LinkRun.of_links LinkSched.id_valid code_clean code_links
  have e := Linker.loaded_objects h3.calls rfl
  subst e
  exact ⟨log, w, w', f, s, h3⟩

/-- with one file the permissions agree: its code is executable and its data writable -/
example : ∃ log w w' f s, LinkRun mixEnv codeLinker LinkSched.id [codeFile 0] log w w' f s ∧
    (∃ o, sectionsNamed f b!".text" = [o] ∧ ∀ b < 4, MappedFor f (o.addr + b) 6) ∧ ∃ o, sectionsNamed f b!".data" = [o] ∧ ∀ b < 4, MappedFor f (o.addr + b) 3 := by
  obtain ⟨log, w, w', f, s, R⟩ := code_run
  have agree : ∀ q ∈ [(b!".text", 6), (b!".data", 3)], ∀ y ∈ [codeFile 0], ∀ t ∈ y.elf.named q.1, t.1.sh_flags = q.2 := by decide +kernel
  have agree' : ∀ n f, (n, f) ∈ [(b!".text", 6), (b!".data", 3)] → AgreeOn [codeFile 0] n f := fun n f hq y hy t ht => by
    rw [agree _ hq y hy t ht]; exact ⟨rfl, rfl, rfl⟩
  obtain ⟨o, h1, _, h2⟩ := C115_permissions_partial R (pre := []) (post := []) rfl (x := codeFile 0) (i := 1) (n := b!".text") ⟨rfl, by decide, rfl, by decide⟩ (by decide)
    (agree' b!".text" 6 (by simp))
  obtain ⟨o', h1', _, h2'⟩ := C115_permissions_partial R (pre := []) (post := []) rfl (x := codeFile 0) (i := 2) (n := b!".data") ⟨rfl, by decide, rfl, by decide⟩ (by decide)
    (agree' b!".data" 3 (by simp))
  exact ⟨log, w, w', f, s, R, ⟨o, h1, h2⟩, o', h1', h2'⟩

/-! ## C116 -/

/-- the program headers of the output -/
theorem Run.kinds {opts : Options} {ops : List Op} {sched : Sched} (h : Run opts ops sched w w' file secs) (hf : FlagsOk ops) :
    ∀ ph ∈ w'.programHeaders, ph.p_type = 6 ∧ ph.p_flags = 4 ∨ (ph.p_type = 2 ∨ ph.p_type = 3) ∧ (ph.p_flags = 4 ∨ ph.p_flags = 6) ∨ ph.p_type = 1 := by
  obtain ⟨hdr, st, hl⟩ := h.laid hf
  obtain ⟨q, hq, h1, h2, _⟩ := hl.phs
  intro ph hm
  rw [hq] at hm
  rcases List.mem_cons.1 hm with rfl | hm
  · exact .inl ⟨h1, h2⟩
  · cases hld : isLoad ph with
    | true => exact .inr (.inr (eq_of_beq hld))
    | false =>
      obtain ⟨a, s, b, old, _, h3, _⟩ := hl.sinv.src ph hm hld
      refine .inr (.inl ⟨specialOf_not_load _ _ _ ph h3, ?_⟩)
      unfold specialOf at h3
      split at h3
      · cases h3
      · rw [List.mem_singleton] at h3
        rw [h3]
        show PF_R ||| (if hasFlag s.sh.sh_flags SHF_WRITE then PF_W else 0) = 4 ∨ PF_R ||| (if hasFlag s.sh.sh_flags SHF_WRITE then PF_W else 0) = 6
        split
        · exact .inr rfl
        · exact .inl rfl

/-- **C116.** No segment of the output is writable and executable unless a section of one of the linked files is. -/
theorem C116_write_xor_execute (R : LinkRun env l sched loaded log w w' file secs) {p : EPhdr} (hp : p ∈ phdrs file) (hw : p.flags.testBit 1 = true)
    (hx : p.flags.testBit 0 = true) : p.type = 1 ∧ ∃ x ∈ loaded, ∃ (i : Nat) (sh : SectionHeader) (n : Name), x.elf.sectionHeaders[i]? = some sh ∧
      x.elf.secName sh.sh_name = some n ∧ sh.sh_type ∉ auxiliaryTypes ∧ sh.sh_flags.testBit 0 = true ∧ sh.sh_flags.testBit 1 = true ∧ sh.sh_flags.testBit 2 = true := by
  have G := R.good.toGoodRun
  rw [(G.run.reads G.good G.names G.fit).phdrs] at hp
  obtain ⟨ph, hm, rfl⟩ := List.mem_map.1 hp
  have hw : ph.p_flags.testBit 1 = true := hw
  have hx : ph.p_flags.testBit 0 = true := hx
  have hty : ph.p_type = 1 := by
    rcases G.run.kinds G.good.flags ph hm with ⟨_, h⟩ | ⟨_, h | h⟩ | h
    · rw [h] at hx; exact absurd hx (by decide)
    · rw [h] at hx; exact absurd hx (by decide)
    · rw [h] at hx; exact absurd hx (by decide)
    · exact h
  refine ⟨hty, ?_⟩
  obtain ⟨t, ht, ha, hpf⟩ := G.run.perms G.good.flags ph hm hty
  obtain ⟨_, b1, b0, _⟩ := segPerm_bits t.sh.sh_flags
  rw [← hpf] at b1 b0
  have ha : t.sh.sh_flags.testBit 1 = true := by
    rw [Section.alloc, show SHF_ALLOC = 2 ^ 1 from rfl, hasFlag_testBit _ _ (by decide)] at ha
    exact ha
  obtain ⟨hdr, st, hl⟩ := G.run.laid G.good.flags
  rcases (hl.facts G.run.hist.secFacts).known t ht with ho | ⟨_, _, _, n, sh, d, r, hop, _, _, hfl, _⟩
  · exfalso
    have key : ∀ o ∈ origins l.options.hashStyle, ¬ (o.2.2.2.2.1.testBit 0 = true ∧ o.2.2.2.2.1.testBit 2 = true) := by
      cases l.options.hashStyle <;> decide
    exact key _ ho ⟨b1.symm.trans hw, b0.symm.trans hx⟩
  · obtain ⟨y, hy, i, h1, h2, h3, _⟩ := R.calls.push hop
    rw [hfl] at ha b1 b0
    exact ⟨y, hy, i, sh, n, h1, h3, h2, by rw [← b1]; exact hw, ha, by rw [← b0]; exact hx⟩

/-- so a link of files without such sections has no such segment -/
example : ∃ log w w' f s, LinkRun mixEnv codeLinker LinkSched.id [codeFile 0] log w w' f s ∧
    ∀ p ∈ phdrs f, ¬ (p.flags.testBit 1 = true ∧ p.flags.testBit 0 = true) := by
  obtain ⟨log, w, w', f, s, R⟩ := code_run
  refine ⟨log, w, w', f, s, R, fun p hp ⟨h1, h2⟩ => ?_⟩
  obtain ⟨_, x, hx, i, sh, n, h3, _, _, h4, _, h5⟩ := C116_write_xor_execute R hp h1 h2
  rw [List.mem_singleton.1 hx] at h3
  have key : ∀ sh ∈ codeElf.sectionHeaders, ¬ (sh.sh_flags.testBit 0 = true ∧ sh.sh_flags.testBit 2 = true) := by decide
  exact key sh (List.mem_of_getElem? h3) ⟨h4, h5⟩

/-! ## C117 -/

/-- **C117, what is known.** Every program header is `PT_PHDR` (6), `PT_INTERP` (3), `PT_DYNAMIC` (2) or `PT_LOAD` (1), whatever the linked files contain. -/
theorem C117_kinds_partial (R : LinkRun env l sched loaded log w w' file secs) : ∀ p ∈ phdrs file, p.type ∈ [6, 3, 2, 1] := by
  have G := R.good.toGoodRun
  intro p hp
  rw [(G.run.reads G.good G.names G.fit).phdrs] at hp
  obtain ⟨ph, hm, rfl⟩ := List.mem_map.1 hp
  show ph.p_type ∈ _
  rcases G.run.kinds G.good.flags ph hm with ⟨h, _⟩ | ⟨h | h, _⟩ | h <;> rw [h] <;> decide

/-- **C117** is violated: a link of a file with thread-local data (`SHF_TLS`, bit 10 of the flags) and the mark that it needs no executable stack (a section
`.note.GNU-stack` that is not executable) gives a file with neither `PT_TLS` (7) nor `PT_GNU_STACK`. -/
theorem C117_kinds_violated : ∃ env l sched x log w w' file secs, LinkRun env l sched [x] log w w' file secs ∧ CleanFiles env l ∧
    (∃ i sh, SectionOf x i sh b!".tdata" ∧ sh.sh_flags.testBit 10 = true ∧ 0 < sh.sh_size) ∧
    (∃ i sh, SectionOf x i sh b!".note.GNU-stack" ∧ sh.sh_flags.testBit 2 = false) ∧ phdrsOf file 7 = [] ∧ phdrsOf file 0x6474e551 = [] := by
  obtain ⟨log, w, w', f, s, R⟩ := code_run
  have key : ∀ ty, ty ∉ [6, 3, 2, 1] → phdrsOf f ty = [] := fun ty ht => by
    unfold phdrsOf
    rw [List.filter_eq_nil_iff]
    intro p hp he
    exact ht (eq_of_beq he ▸ C117_kinds_partial R p hp)
  exact ⟨mixEnv, codeLinker, LinkSched.id, codeFile 0, log, w, w', f, s, R, code_clean, ⟨3, _, ⟨rfl, by decide, rfl, by decide⟩, by decide, by decide⟩,
    ⟨4, _, ⟨rfl, by decide, rfl, by decide⟩, by decide⟩, key 7 (by decide), key _ (by decide)⟩

end Dld
