import Verif.Spec.Private
import Verif.Props.Loose
/-! # C147: the private symbols of a file -/
namespace Dld
open Writer Spec

variable {env : Env} {l : Linker} {sched : LinkSched} {loaded pre post pre' post' : List Loaded} {log : List Call} {w w' : Writer} {file : Bytes}
  {secs : List Section} {x x' : Loaded}

/-- **C147** is violated by every link in which two files use the same name: the references of both lead to the same address, also if the symbol is private
to each of them. -/
theorem C147_shared_violated (R : LinkRun env l sched loaded log w w' file secs) (hc : CleanFiles env l) {n : Name} (ho : OwnName env l n)
    (e : loaded = pre ++ x :: post) {i : Nat} {m : Name} {rel : InReloc} {s : Sym} (hr : Reference x i m rel s) (hn : x.elf.symName s.st_name = some n)
    (h3 : s.st_info % 16 ≠ 3)
    (e' : loaded = pre' ++ x' :: post') {i' : Nat} {m' : Name} {rel' : InReloc} {s' : Sym} (hr' : Reference x' i' m' rel' s')
    (hn' : x'.elf.symName s'.st_name = some n) (h3' : s'.st_info % 16 ≠ 3) :
    ∃ o o' v, sectionsNamed file m = [o] ∧ sectionsNamed file m' = [o'] ∧ Reaches file o (placeOf pre x m i + rel.r_offset) rel.rela v ∧
      Reaches file o' (placeOf pre' x' m' i' + rel'.r_offset) rel'.rela v := by
  obtain ⟨y, j, t, sec, k, hra, hm, _, hk, es⟩ := R.calls.refersAt hc R.good.run.hist e hr
  obtain ⟨y', j', t', sec', k', hra', hm', _, hk', es'⟩ := R.calls.refersAt hc R.good.run.hist e' hr'
  obtain ⟨sh, S, _⟩ := hr.home
  obtain ⟨sh', S', _⟩ := hr'.home
  obtain ⟨o, v, h1, h2, h4⟩ := C88_direct R.good hra S.named (R.calls.refers hm hk es hn h3) (R.calls.not_imported ho)
  obtain ⟨o', v', h1', h2', h4'⟩ := C88_direct R.good hra' S'.named (R.calls.refers hm' hk' es' hn' h3') (R.calls.not_imported ho)
  rw [h2] at h2'
  cases h2'
  exact ⟨o, o', v.value, h1, h1', h4, h4'⟩

/-- **C147, the part that holds.** If no other symbol of the linked files has the name of a private symbol, the references of its file lead to it, whatever
the libraries have. Missing: names that another symbol has too. -/
theorem C147_private_partial (R : LinkRun env l sched loaded log w w' file secs) (hc : CleanFiles env l) (e : loaded = pre ++ x :: post) {j : Nat} {d : Sym}
    {n m' : Name} {sh : SectionHeader} (hp : PrivateSymbol x j d n sh m') (hne : n ≠ []) (hl : n ∉ linkerSymbols)
    (ha : ∀ y ∈ loaded, ∀ j' s', SymbolOf y j' s' n → y = x ∧ j' = j) (hz : sh.sh_type ≠ 8 ∨ FirstOf pre x m' d.st_shndx)
    {i : Nat} {m : Name} {rel : InReloc} (hr : Reference x i m rel d) :
    ∃ o o', sectionsNamed file m = [o] ∧ sectionsNamed file m' = [o'] ∧
      Reaches file o (placeOf pre x m i + rel.r_offset) rel.rela (o'.addr + placeOf pre x m' d.st_shndx + d.st_value) := by
  have hx : x ∈ loaded := by rw [e]; simp
  have same : ∀ y ∈ loaded, ∀ j' s', SymbolOf y j' s' n → s' = d := by
    intro y hy j' s' h
    obtain ⟨rfl, rfl⟩ := ha y hy j' s' h
    have := h.1
    rw [hp.symbol.1] at this
    exact (Option.some.inj this).symm
  have hd : Definition pre x post j d n :=
    ⟨hne, hl, hp.symbol, hp.defined, hp.relative, fun y hy j' s' h _ => ha y (e ▸ hy) j' s' h, .inl fun y hy j' s' h => by rw [same y (e ▸ hy) j' s' h]⟩
  have hi : ¬ ImportedIn (opsOf log) n := by
    rintro ⟨a, s, path, r, b, eq, _⟩
    obtain ⟨_, q, hq, hu, _⟩ := R.calls.dynsym (s := s) (n := n) (path := path) (r := r) (by rw [eq]; simp)
    obtain ⟨s', sec, hm, h0, _⟩ := hu.wanted
    obtain ⟨c, hqc⟩ := hq
    obtain ⟨y, hy, j', hs, _⟩ := R.calls.mention_call hqc.symm hm
    rw [same y hy j' s' hs] at h0
    exact hp.defined h0
  obtain ⟨y, j', s', sec, n', hra, hm, _, hn', es⟩ := R.calls.refersAt hc R.good.run.hist e hr
  obtain ⟨sh0, S0, _⟩ := hr.home
  obtain ⟨o, v, h1, h2, h4⟩ := C88_direct R.good hra S0.named (R.calls.refers hm hn' es hp.symbol.2.1 hp.symbol.2.2) hi
  obtain ⟨o', v', h5, h6, h7, _⟩ := C112_symbol R hc e hd hp.home hz
  rw [h2] at h6
  cases h6
  rw [h7] at h4
  exact ⟨o, o', h1, h5, h4⟩

/-! ### Concrete links -/

/-- code and a word of data that holds the address of the symbol `helper` -/
def helperElf (start : Name) (helper : Sym) : ElfFile where
  isObjectFile := true
  sectionHeaders :=
    [{}, { demoSh SHT_PROGBITS 6 8 4 with sh_name := 1 }, { demoSh SHT_PROGBITS 3 8 8 with sh_name := 18, sh_offset := 8 },
      { demoSh SHT_RELA 0 24 8 with sh_name := 24, sh_info := 2 }]
  secName := AMap.get? [(0, []), (1, b!".text"), (18, b!".data"), (24, b!".rela.data")]
  syms := [{}, helper, { demoSym STT_FUNC 1 0 4 with st_name := 1 }]
  symName := AMap.get? [(0, []), (1, start), (8, b!"helper")]
  shdrRelocs := [(3, [⟨0, some 0, 1, R_X86_64_64⟩])]
  dynsyms := []
  dynName := fun _ => none

/-- a private function at `value` of the code, or a reference to a function of another file -/
def ownHelper (value : Nat) : Sym := { demoSym STT_FUNC 1 value 4 with st_info := 2, st_name := 8 }
def theirHelper : Sym := { demoSym 0 0 0 0 with st_name := 8 }

def helperBytes (c : UInt8) : Bytes := List.replicate 8 c ++ List.replicate 8 0

/-- two files: the second has a private `helper` at the start of its code -/
def helperEnv (helper : Sym) : Env :=
  tableEnv [(mainPath, helperBytes 0x90), (Linker.calleePath, helperBytes 0xc3)]
    [(helperBytes 0x90, helperElf b!"_start" helper), (helperBytes 0xc3, helperElf b!"g" (ownHelper 0))] []

def helperLinker : Linker := { options := Options.default, objects := [mainPath, Linker.calleePath], archives := [] }

def helperMain (helper : Sym) : Loaded := ⟨.object 0, mainPath, helperBytes 0x90, helperElf b!"_start" helper⟩
def helperOther : Loaded := ⟨.object 1, Linker.calleePath, helperBytes 0xc3, helperElf b!"g" (ownHelper 0)⟩

/-- **C147** is violated by two files that have a private function `helper` each, at offset 4 and 0 of their 8 bytes of code: the words of both files hold the
same number, and it is the address of neither but the sum of the two. -/
theorem C147_mixed_violated : ∃ log w w' f s, LinkRun (helperEnv (ownHelper 4)) helperLinker LinkSched.id [helperMain (ownHelper 4), helperOther] log w w' f s ∧
    PrivateSymbol (helperMain (ownHelper 4)) 1 (ownHelper 4) b!"helper" { demoSh SHT_PROGBITS 6 8 4 with sh_name := 1 } b!".text" ∧
    PrivateSymbol helperOther 1 (ownHelper 0) b!"helper" { demoSh SHT_PROGBITS 6 8 4 with sh_name := 1 } b!".text" ∧
    ∃ o, sectionsNamed f b!".text" = [o] ∧ o.addr + placeOf [] (helperMain (ownHelper 4)) b!".text" 1 + 4 = o.addr + 4 ∧
      o.addr + placeOf [helperMain (ownHelper 4)] helperOther b!".text" 1 + 0 = o.addr + 8 ∧
      bodyNamed f b!".data" = le 8 (o.addr + 4 + (o.addr + 8)) ++ le 8 (o.addr + 4 + (o.addr + 8)) := by
  have hc : CleanFiles (helperEnv (ownHelper 4)) helperLinker := CleanFiles.of_table (by decide +kernel)
  obtain ⟨log, loaded, w, w', f, s, h1, h2, R, hp⟩ := LinkRun.of_links LinkSched.id_valid hc
    (P := fun w _ f s => match secsNamed w s b!".text" with
      | [o] => bodyNamed f b!".data" == le 8 (o.addr + 4 + (o.addr + 8)) ++ le 8 (o.addr + 4 + (o.addr + 8))
      | _ => false) (fuel := 5) (by decide +kernel)
  have e := Linker.loaded_objects R.calls rfl
  subst e
  simp only [R.good.toGoodRun.secsNamed_eq] at hp
  split at hp
  · rename_i o ho
    exact ⟨log, w, w', f, s, R, ⟨⟨rfl, rfl, by decide⟩, rfl, ⟨rfl, by decide, rfl, by decide⟩, by decide, by decide⟩,
      ⟨⟨rfl, rfl, by decide⟩, rfl, ⟨rfl, by decide, rfl, by decide⟩, by decide, by decide⟩, o, ho,
      by rw [show placeOf [] (helperMain (ownHelper 4)) b!".text" 1 = 0 by decide +kernel],
      by rw [show placeOf [helperMain (ownHelper 4)] helperOther b!".text" 1 = 8 by decide +kernel], eq_of_beq hp⟩
  · cases hp

/-- **C147** is violated by a file that refers to a function `helper` which no file gives to all: the link succeeds, and the reference leads to the private
function of the other file. -/
theorem C147_visible_violated : ∃ log w w' f s, Linker.link (helperEnv theirHelper) helperLinker LinkSched.id 5 = some (.ok f) ∧
    LinkRun (helperEnv theirHelper) helperLinker LinkSched.id [helperMain theirHelper, helperOther] log w w' f s ∧
    NoPublic [helperMain theirHelper, helperOther] b!"helper" ∧ NotInLibs (helperEnv theirHelper) helperLinker b!"helper" ∧
    ∃ o, sectionsNamed f b!".text" = [o] ∧ o.addr + placeOf [helperMain theirHelper] helperOther b!".text" 1 = o.addr + 8 ∧
      bodyNamed f b!".data" = le 8 (o.addr + 8) ++ le 8 (o.addr + 8) := by
  have hc : CleanFiles (helperEnv theirHelper) helperLinker := CleanFiles.of_table (by decide +kernel)
  obtain ⟨log, loaded, w, w', f, s, h1, h2, R, hp⟩ := LinkRun.of_links LinkSched.id_valid hc
    (P := fun w _ f s => match secsNamed w s b!".text" with
      | [o] => bodyNamed f b!".data" == le 8 (o.addr + 8) ++ le 8 (o.addr + 8)
      | _ => false) (fuel := 5) (by decide +kernel)
  have e := Linker.loaded_objects R.calls rfl
  subst e
  simp only [R.good.toGoodRun.secsNamed_eq] at hp
  split at hp
  · rename_i o ho
    refine ⟨log, w, w', f, s, h1, R, ?_, (fun p hp => nomatch hp), o, ho,
      by rw [show placeOf [helperMain theirHelper] helperOther b!".text" 1 = 8 by decide +kernel], eq_of_beq hp⟩
    intro y hy j t ht
    have key : ∀ t ∈ theirHelper :: ownHelper 0 :: [({} : Sym), { demoSym STT_FUNC 1 0 4 with st_name := 1 }], t.st_name ≠ 8 → AMap.get? [(0, []), (1, b!"_start"), (8, b!"helper")] t.st_name ≠ some b!"helper" ∧
      AMap.get? [(0, []), (1, b!"g"), (8, b!"helper")] t.st_name ≠ some b!"helper" := by decide
    have key2 : ∀ t ∈ theirHelper :: ownHelper 0 :: [({} : Sym), { demoSym STT_FUNC 1 0 4 with st_name := 1 }], t.st_name = 8 → t.st_info / 16 = 0 ∨ t.st_shndx = 0 := by decide
    have ht1 := List.mem_of_getElem? ht.1
    have ht2 := ht.2.1
    simp only [List.mem_cons, List.not_mem_nil, or_false] at hy
    rcases hy with rfl | rfl
    · have hm : t ∈ theirHelper :: ownHelper 0 :: [({} : Sym), { demoSym STT_FUNC 1 0 4 with st_name := 1 }] := by
        have : t ∈ [({} : Sym), theirHelper, { demoSym STT_FUNC 1 0 4 with st_name := 1 }] := ht1
        simp only [List.mem_cons, List.not_mem_nil, or_false] at this ⊢
        rcases this with h | h | h <;> simp [h]
      by_cases h8 : t.st_name = 8
      · exact key2 t hm h8
      · exact absurd ht2 (key t hm h8).1
    · have hm : t ∈ theirHelper :: ownHelper 0 :: [({} : Sym), { demoSym STT_FUNC 1 0 4 with st_name := 1 }] := by
        have : t ∈ [({} : Sym), ownHelper 0, { demoSym STT_FUNC 1 0 4 with st_name := 1 }] := ht1
        simp only [List.mem_cons, List.not_mem_nil, or_false] at this ⊢
        rcases this with h | h | h <;> simp [h]
      by_cases h8 : t.st_name = 8
      · exact key2 t hm h8
      · exact absurd ht2 (key t hm h8).2
  · cases hp

/-- the references of one word of data of `helperElf` -/
theorem helper_reference {x : Loaded} {start : Name} {t : Sym} (hx : x.elf = helperElf start t) :
    Reference x 2 b!".data" ⟨0, some 0, 1, R_X86_64_64⟩ t := by
  refine ⟨⟨{ demoSh SHT_PROGBITS 3 8 8 with sh_name := 18, sh_offset := 8 }, ⟨by rw [hx]; rfl, by decide, by rw [hx]; rfl, by decide⟩, by decide⟩,
    ⟨by decide, 0, 0, ?_⟩, ?_, by rw [hx]; rfl⟩
  · rw [hx]
    exact (by decide : (0, 3, 0, (⟨0, some 0, 1, R_X86_64_64⟩ : InReloc)) ∈ (helperElf [] {}).relocs)
  · unfold ElfFile.RelocsApart
    rw [hx]
    exact (by decide +kernel : ((helperElf [] {}).usedRelocs.filter fun z => z.2.1 = 3).Pairwise fun y z => Disjoint (siteOf y.2.2.2.rela) (siteOf z.2.2.2.rela))

/-- `C147_shared_violated`: the words of both files, see also `C147_mixed_violated` -/
example : ∃ log w w' f s, LinkRun (helperEnv (ownHelper 4)) helperLinker LinkSched.id [helperMain (ownHelper 4), helperOther] log w w' f s ∧
    ∃ o o' v, sectionsNamed f b!".data" = [o] ∧ sectionsNamed f b!".data" = [o'] ∧ Reaches f o 0 ⟨0, 2 ^ 32 * 1 + 1, 0⟩ v ∧ Reaches f o' 8 ⟨0, 2 ^ 32 * 1 + 1, 0⟩ v := by
  obtain ⟨log, w, w', f, s, R, _⟩ := C147_mixed_violated
  refine ⟨log, w, w', f, s, R, ?_⟩
  exact C147_shared_violated R (CleanFiles.of_table (by decide +kernel)) (.inl fun p hp => by cases hp) (pre := []) (x := helperMain (ownHelper 4)) rfl
    (helper_reference (start := b!"_start") rfl) rfl (by decide) (pre' := [helperMain (ownHelper 4)]) (x' := helperOther) rfl
    (helper_reference (start := b!"g") rfl) rfl (by decide)

/-- one file with a private function -/
def privEnv : Env := tableEnv [(mainPath, helperBytes 0x90)] [(helperBytes 0x90, helperElf b!"_start" (ownHelper 4))] []

def privLinker : Linker := { options := Options.default, objects := [mainPath], archives := [] }

/-- `C147_private_partial`: the word holds the address of the function -/
example : ∃ log w w' f s, LinkRun privEnv privLinker LinkSched.id [helperMain (ownHelper 4)] log w w' f s ∧
    ∃ o o', sectionsNamed f b!".data" = [o] ∧ sectionsNamed f b!".text" = [o'] ∧ Reaches f o 0 ⟨0, 2 ^ 32 * 1 + 1, 0⟩ (o'.addr + 0 + 4) := by
  have hc : CleanFiles privEnv privLinker := CleanFiles.of_table (by decide +kernel)
  obtain ⟨log, loaded, w, w', f, s, h1, h2, R, hp⟩ := LinkRun.of_links LinkSched.id_valid hc (P := fun _ _ _ _ => true) (fuel := 5) (by decide +kernel)
  have e := Linker.loaded_objects R.calls rfl
  subst e
  refine ⟨log, w, w', f, s, R, ?_⟩
  refine C147_private_partial R hc (pre := []) (x := helperMain (ownHelper 4)) (post := []) rfl (j := 1) (n := b!"helper") (d := ownHelper 4)
    ⟨⟨rfl, rfl, by decide⟩, rfl, ⟨rfl, by decide, rfl, by decide⟩, by decide, by decide⟩ (by decide) (by decide) ?_ (.inl (by decide))
    (helper_reference (start := b!"_start") rfl)
  intro y hy j t ht
  cases List.mem_singleton.1 hy
  refine ⟨rfl, ?_⟩
  have h1 := ht.1
  have h2 := ht.2.1
  match j, h1 with
  | 0, h1 => cases h1; exact absurd h2 (by decide)
  | 1, _ => rfl
  | 2, h1 => cases h1; exact absurd h2 (by decide)
  | j + 3, h1 => cases h1

end Dld
