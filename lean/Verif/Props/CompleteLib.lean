import Verif.Spec.CompleteLib
import Verif.Lemmas.LibOnce
import Verif.Props.ObjectOrder
/-! # Programs with libraries: C98, C140, C141 with requirements on the contents of the files alone -/
namespace Dld
open Writer Spec StringTable

namespace Calls
variable {env : Env} {l : Linker} {N : List Call → Name → Prop} {loaded : List Loaded} {log : List Call} {opts : Options} {w : Writer} {V K : Nat}

/-- what an entry of a library costs -/
def libKeyCost (env : Env) : Source × Item → Nat
  | (.library p, .dynsym j) => ((((env.read p).bind env.parseElf).bind fun e => (e.dynsyms[j]?).map fun s =>
      s.st_size + ((e.dynName s.st_name).getD []).length + 200).getD 0)
  | (.library p, .needed _) => (p.file.getD []).length + 32
  | _ => 0

theorem file_key (h : Calls env l N loaded log) {c : Call} (hc : c ∈ log) :
    (c.item.isLib = false → c.op.cost = keyCost loaded (c.source, c.item)) ∧ (c.item.isLib = true → c.op.cost = libKeyCost env (c.source, c.item)) := by
  obtain ⟨a, b, e⟩ := List.append_of_mem hc
  cases h.just a c b e with
  | «section» hx hi ht hn hd =>
    refine ⟨fun _ => ?_, fun h => by (cases h)⟩
    simp only [keyCost, h.fileOf_eq hx, Option.map_some, Option.getD_some, itemCost, hi, hn, Op.cost]
  | symbol hx hj hn hs =>
    refine ⟨fun _ => ?_, fun h => by (cases h)⟩
    simp only [keyCost, h.fileOf_eq hx, Option.map_some, Option.getD_some, itemCost, hj, hn, Op.cost]
  | reloc hx hk h0 hs hr hy =>
    refine ⟨fun _ => ?_, fun h => by (cases h)⟩
    simp only [keyCost, h.fileOf_eq hx, Option.map_some, Option.getD_some, itemCost, Op.cost]
  | dynsym hp hd he hj hn hq hm =>
    refine ⟨fun h => by (cases h), fun _ => ?_⟩
    simp only [libKeyCost, hd, Option.bind_some, he, hj, Option.map_some, hn, Option.getD_some, Op.cost]
  | needed hf hb =>
    refine ⟨fun h => by (cases h), fun _ => ?_⟩
    simp only [libKeyCost, hf, Option.getD_some, Op.cost]

theorem sum_three (log : List Call) (f : Call → Nat) :
    (log.map f).sum = ((log.filter fun c => c.item.isSection).map f).sum + ((log.filter fun c => c.item.isOther).map f).sum +
      ((log.filter fun c => c.item.isLib).map f).sum := by
  induction log with
  | nil => rfl
  | cons c log ih =>
    rw [List.map_cons, List.sum_cons, ih]
    cases hi : c.item <;> simp [hi, Item.isSection, Item.isOther, Item.isLib] <;> omega

theorem sum_filter_keys {log : List Call} {f : Call → Nat} {g : Source × Item → Nat} (p : Call → Bool) (h : ∀ c ∈ log, p c = true → f c = g (c.source, c.item)) :
    ((log.filter p).map f).sum = (((log.filter p).map fun c => (c.source, c.item)).map g).sum := by
  rw [List.map_map]
  congr 1
  exact List.map_congr_left fun c hc => h c (List.mem_filter.1 hc).1 (List.mem_filter.1 hc).2

/-- the calls for files cost what the files cost -/
theorem files_cost (h : Calls env l N loaded log) :
    ((sectionCalls log).map (keyCost loaded)).sum + ((otherCalls log).map (keyCost loaded)).sum = (loaded.map fun x => x.elf.cost).sum := by
  rw [h.sections, h.others,
    sum_flatMap (c := fun x => (x.elf.copied.map fun y => y.1.sh_size + ((x.elf.secName y.1.sh_name).getD []).length + 4400).sum),
    sum_flatMap (c := fun x => (x.elf.syms.map fun s => ((x.elf.symName s.st_name).getD []).length + 200).sum + 64 * x.elf.usedRelocs.length)]
  · have : ∀ ys : List Loaded, (ys.map fun x => (x.elf.copied.map fun y => y.1.sh_size + ((x.elf.secName y.1.sh_name).getD []).length + 4400).sum).sum +
        (ys.map fun x => (x.elf.syms.map fun s => ((x.elf.symName s.st_name).getD []).length + 200).sum + 64 * x.elf.usedRelocs.length).sum =
        (ys.map fun x => x.elf.cost).sum := by
      intro ys
      induction ys with
      | nil => rfl
      | cons y ys ih => simp only [List.map_cons, List.sum_cons, ElfFile.cost] at ih ⊢; omega
    exact this loaded
  · intro x hx
    unfold Loaded.otherKeys
    rw [List.map_append, List.sum_append, List.map_map, List.map_map, ← sum_range x.elf.syms]
    congr 1
    · congr 1
      apply List.map_congr_left
      intro j _
      simp only [Function.comp, keyCost, h.fileOf_eq hx, Option.map_some, Option.getD_some, itemCost]
    · generalize x.elf.usedRelocs = us
      induction us with
      | nil => rfl
      | cons u us ih =>
        rw [List.map_cons, List.sum_cons, ih]
        simp only [Function.comp, keyCost, h.fileOf_eq hx, Option.map_some, Option.getD_some, itemCost, List.length_cons]
        omega
  · intro x hx
    unfold Loaded.sectionKeys
    rw [List.map_map]
    congr 1
    apply List.map_congr_left
    intro y hy
    unfold ElfFile.copied at hy
    rw [List.mem_filter, List.mem_zipIdx_iff_getElem?] at hy
    simp only [Function.comp, keyCost, h.fileOf_eq hx, Option.map_some, Option.getD_some, itemCost, hy.1]

/-- all entries of a library -/
def entryKeys (env : Env) (p : Path) : List (Source × Item) :=
  match (env.read p).bind env.parseElf with
  | some e => (List.range e.dynsyms.length).flatMap fun j => [(.library p, .dynsym j), (.library p, .needed j)]
  | none => []

theorem entryKeys_cost (env : Env) (p : Path) : ((entryKeys env p).map (libKeyCost env)).sum = libraryCost env p := by
  unfold entryKeys libraryCost
  cases he : (env.read p).bind env.parseElf with
  | none => rfl
  | some e =>
    simp only
    rw [sum_flatMap (c := fun j => ((e.dynsyms[j]?).map fun s => s.st_size + ((e.dynName s.st_name).getD []).length + 200 + ((p.file.getD []).length + 32)).getD 0),
      sum_range e.dynsyms fun s => s.st_size + ((e.dynName s.st_name).getD []).length + 200 + ((p.file.getD []).length + 32)]
    intro j hj
    obtain ⟨s, hs⟩ : ∃ s, e.dynsyms[j]? = some s := ⟨_, List.getElem?_eq_getElem (List.mem_range.1 hj)⟩
    simp only [List.map_cons, List.map_nil, List.sum_cons, List.sum_nil, libKeyCost, he, Option.bind_some, hs, Option.map_some, Option.getD_some, Nat.add_zero]

theorem lib_key (h : Calls env l N loaded log) {k : Source × Item} (hk : k ∈ libCalls log) :
    k ∈ (l.options.sharedLibs.map (·.1)).flatMap (entryKeys env) := by
  obtain ⟨c, hc, rfl⟩ := List.mem_map.1 hk
  rw [List.mem_filter] at hc
  obtain ⟨hc, hl⟩ := hc
  have dyn : ∀ p j op, (⟨.library p, .dynsym j, op⟩ : Call) ∈ log → p ∈ l.options.sharedLibs.map (·.1) ∧
      ∃ e, (env.read p).bind env.parseElf = some e ∧ j < e.dynsyms.length := by
    intro p j op hm
    obtain ⟨a, b, e⟩ := List.append_of_mem hm
    have := h.just a _ b e
    generalize hcc : (⟨.library p, .dynsym j, op⟩ : Call) = cc at this
    cases this with
    | dynsym hp hd he hj =>
      cases hcc
      exact ⟨hp, _, by rw [hd]; exact he, (List.getElem?_eq_some_iff.1 hj).1⟩
    | «section» => cases congrArg Call.item hcc
    | symbol => cases congrArg Call.item hcc
    | reloc => cases congrArg Call.item hcc
    | needed => cases congrArg Call.item hcc
  have mem : ∀ p j op, (⟨.library p, .dynsym j, op⟩ : Call) ∈ log → ∀ i : Item, (i = .dynsym j ∨ i = .needed j) →
      ((Source.library p, i) : Source × Item) ∈ (l.options.sharedLibs.map (·.1)).flatMap (entryKeys env) := by
    intro p j op hm i hi
    obtain ⟨hp, e, he, hj⟩ := dyn p j op hm
    refine List.mem_flatMap.2 ⟨p, hp, ?_⟩
    unfold entryKeys
    rw [he]
    refine List.mem_flatMap.2 ⟨j, List.mem_range.2 hj, ?_⟩
    rcases hi with rfl | rfl <;> simp
  obtain ⟨a, b, e⟩ := List.append_of_mem hc
  cases h.just a c b e with
  | «section» => cases hl
  | symbol => cases hl
  | reloc => cases hl
  | dynsym => exact mem _ _ _ hc _ (.inl rfl)
  | @needed p j f b' op hf hb => exact mem p j op (by rw [e, hb]; simp) _ (.inr rfl)

/-- the calls cost at most what the objects and libraries cost -/
theorem cost_le (h : Calls env l N loaded log) (ho : (libCalls log).Nodup) :
    ((opsOf log).map Op.cost).sum ≤ (loaded.map fun x => x.elf.cost).sum + ((l.options.sharedLibs.map (·.1)).map (libraryCost env)).sum := by
  have h1 : ((opsOf log).map Op.cost).sum = (log.map fun c => c.op.cost).sum := by unfold opsOf; rw [List.map_map]; rfl
  rw [h1, sum_three,
    sum_filter_keys (g := keyCost loaded) _ (fun c hc hi => (h.file_key hc).1 (by cases hci : c.item <;> simp [hci, Item.isSection, Item.isLib] at hi ⊢)),
    sum_filter_keys (g := keyCost loaded) _ (fun c hc hi => (h.file_key hc).1 (by cases hci : c.item <;> simp [hci, Item.isOther, Item.isLib] at hi ⊢)),
    sum_filter_keys (g := libKeyCost env) _ (fun c hc hi => (h.file_key hc).2 hi)]
  have h2 := h.files_cost
  unfold sectionCalls otherCalls at h2
  rw [h2]
  refine Nat.add_le_add_left ?_ _
  haveI : DecidableEq (Source × Item) := fun a b => Classical.propDecidable (a = b)
  refine Nat.le_trans (sum_subset (libKeyCost env) _ _ ho fun k hk => h.lib_key hk) (Nat.le_of_eq ?_)
  exact sum_flatMap fun p _ => entryKeys_cost env p

/-- objects and libraries of moderate size make calls of moderate size -/
theorem fits_program (h : Calls env l N (objectsOf env l) log) (hh : Hist opts (opsOf log) w) (hc : CleanFiles env l) (hn : NamesSmall env l)
    (ho : (libCalls log).Nodup) (S : SmallProgram env l V K) : Spec.Fits l.options (opsOf log) V K := by
  refine ⟨?_, ?_, h.attaches_le hh hc hn S.definitions, ?_⟩
  · intro s sec n path r hop
    obtain ⟨x, hx, hs, _⟩ := h.sym hop
    exact S.values x hx s hs
  · intro rel y sr path hop
    obtain ⟨c, hc, e⟩ := List.mem_map.1 hop
    obtain ⟨x, k, pos, j, rel', s, sh, n, R⟩ := h.relocCall hc e
    rw [R.rela]
    exact S.addends x R.file _ R.used
  · unfold reach
    have h1 := Nat.mul_le_mul_left (K + 5) (Nat.add_le_add_left (h.cost_le ho) (0x200000 + 1024 + baseCost l.options))
    have h2 := S.small
    omega

end Calls

namespace Linker
variable {env : Env} {l l' : Linker} {sched sched' : LinkSched} {fuel : Nat} {F : List Nat} {V K : Nat} {file : Bytes}

/-- a program of moderate size makes calls the linker can digest -/
theorem gathered_digestible (hc : CleanFiles env l) (hf : SoundFiles env l) (hr : SoundRelocs env l) (hn : NamesSmall env l) (hF : FewFlags env l F)
    (hv : sched.Valid) (ha : l.archives = []) (S : SmallProgram env l V K) {w : Writer} (h : gathered env l sched fuel = some (.ok w)) :
    ∃ log, Calls env l (NeededIn env l) (objectsOf env l) log ∧ Hist l.options (opsOf log) w ∧ Digestible l.options (opsOf log) w F V K := by
  obtain ⟨log, h1, h2, h3⟩ := gathered_entries hv ha hn h
  exact ⟨log, h1, h2, h1.digestible h2 hc hf hr hn hF (h1.fits_program h2 hc hn h3 S)⟩

theorem program_no_panic (hc : CleanFiles env l) (hf : SoundFiles env l) (hr : SoundRelocs env l) (hn : NamesSmall env l) (hF : FewFlags env l F)
    (hv : sched.Valid) (ha : l.archives = []) (S : SmallProgram env l V K) : link env l sched fuel ≠ some (.error .panic) := by
  intro h
  rcases link_gathered h with ⟨e, hg, he⟩ | ⟨w, hg, hfin⟩
  · cases he
    exact gathered_sound hc hf hn hv hg rfl
  · obtain ⟨log, h1, h2, D⟩ := gathered_digestible hc hf hr hn hF hv ha S hg
    exact finish_sound hv h2 D (h1.symstr_small h2 hn) hfin

theorem program_tables (hc : CleanFiles env l) (hf : SoundFiles env l) (hr : SoundRelocs env l) (hn : NamesSmall env l) (hF : FewFlags env l F)
    (hv : sched.Valid) (ha : l.archives = []) (S : SmallProgram env l V K) : TablesFit env l sched fuel := by
  intro w w' hg hcomp
  obtain ⟨log, h1, h2, D⟩ := gathered_digestible hc hf hr hn hF hv ha S hg
  obtain ⟨a, b, _, _, c⟩ := D.toWellFormed.names h2
  refine ⟨a, b, ?_⟩
  obtain ⟨st, rfl⟩ := computeSections_stages hcomp
  obtain ⟨_, _, hL⟩ := st.laid hv.toSched h2.secFacts h2.untouched D.good.flags
  rw [hL.secs]; omega

/-- **C98 for objects and libraries.** Linking well-formed object files with shared libraries, all of moderate size, ends; it writes an output of which all
other properties of links hold, or it reports an error. All hypotheses are about the contents of the files. -/
theorem C98_libraries (hc : CleanFiles env l) (hf : SoundFiles env l) (hr : SoundRelocs env l) (hn : NamesSmall env l) (hF : FewFlags env l F)
    (hN : FieldNumbers env l) (hv : sched.Valid) (ha : l.archives = []) (S : SmallProgram env l V K) :
    ∃ rounds res, (∀ fuel, rounds ≤ fuel → link env l sched fuel = some res) ∧
      ((∃ file log w w' secs, res = .ok file ∧ LinkRun env l sched (objectsOf env l) log w w' file secs) ∨ ∃ p k, res = .error (.err p k)) := by
  have ht : TruthfulIndexes env l := by intro p hp; rw [ha] at hp; cases hp
  obtain ⟨rounds, res, hres⟩ := C60_terminates ht hv
  refine ⟨rounds, res, hres, ?_⟩
  have h := hres rounds (Nat.le_refl _)
  cases res with
  | error f =>
    cases f with
    | err p k => exact .inr ⟨p, k, rfl⟩
    | panic => exact absurd h (program_no_panic hc hf hr hn hF hv ha S)
  | ok file =>
    obtain ⟨_, _, w, w', secs, hg, _, h2, h3⟩ := link_ok hv h
    obtain ⟨log, h4, hh, D⟩ := gathered_digestible hc hf hr hn hF hv ha S hg
    have h2 : Run l.options (opsOf log) sched.toSched w w' file secs := ⟨hh, h2.valid, h2.compute, h2.write⟩
    refine .inl ⟨file, log, w, w', secs, rfl, h4, h2.goodLink D.toWellFormed ⟨?_, ?_, ?_⟩ (h4.namesClean hc), h3⟩
    · intro n sh d r hop
      obtain ⟨x, hx, hcp, _⟩ := h4.copies hop
      exact hN.sections _ _ _ _ (h4.inputAt hx) hcp.1
    · intro s sec n path r hop
      obtain ⟨x, hx, hsy, _⟩ := h4.sym hop
      exact hN.symbols _ _ _ _ (h4.inputAt hx) hsy
    · intro s n path r hop
      exact hN.dynsyms _ _ _ (h4.dynsym hop).1

/-- **C140 for objects and libraries.** As `C140_objects_partial`, with names that libraries have. All hypotheses are about the contents of the files. -/
theorem C140_libraries_partial (hc : CleanFiles env l) (hf : SoundFiles env l) (hr : SoundRelocs env l) (hn : NamesSmall env l) (hF : FewFlags env l F)
    (hv : sched.Valid) (ha : l.archives = []) (S : SmallProgram env l V K) (hR : ReadableFiles env l) (hD : DefinedOnce env l)
    (hN : ∀ n, Needs env l n → n = b!"_GLOBAL_OFFSET_TABLE_" ∨ DefinedGlobally env l n ∨ InSection env l n ∨ InLibrary env l n) :
    ∃ rounds file, ∀ fuel, rounds ≤ fuel → link env l sched fuel = some (.ok file) :=
  complete hc hn hv ha hR hD hN (fun _ => program_no_panic hc hf hr hn hF hv ha S) fun _ => program_tables hc hf hr hn hF hv ha S

end Linker

theorem Reordered.program {env : Env} {l l' : Linker} (h : Reordered l l') {V K : Nat} (hS : SmallProgram env l V K) : SmallProgram env l' V K := by
  have sums : ∀ f : ElfFile → Nat, ((objectsOf env l').map fun x => f x.elf).sum = ((objectsOf env l).map fun x => f x.elf).sum := by
    intro f
    have := h.elfs (env := env) |>.map f
    rw [List.map_map, List.map_map] at this
    exact this.sum_nat
  refine ⟨?_, ?_, ⟨hS.definitions.1, fun n => ?_⟩, ?_⟩
  · intro x hx
    obtain ⟨y, hy, e⟩ := h.loaded hx
    rw [← e]; exact hS.values y hy
  · intro x hx
    obtain ⟨y, hy, e⟩ := h.loaded hx
    rw [← e]; exact hS.addends y hy
  · rw [sums fun e => e.definitions n]; exact hS.definitions.2 n
  · rw [sums ElfFile.cost, h.options]; exact hS.small

namespace Linker
variable {env : Env} {l l' : Linker} {sched sched' : LinkSched} {fuel : Nat} {F : List Nat} {V K : Nat} {file : Bytes}

/-- **C141 for objects and libraries, the part that holds.** As `C141_order_partial`, with libraries. Missing: weak definitions beside global ones
(`C141_order_violated`), absolute and common symbols that are not global, and archives. -/
theorem C141_libraries_partial (hc : CleanFiles env l) (hf : SoundFiles env l) (hr : SoundRelocs env l) (hn : NamesSmall env l) (hF : FewFlags env l F)
    (hv : sched.Valid) (hv' : sched'.Valid) (ha : l.archives = []) (S : SmallProgram env l V K) (hR : ReadableFiles env l)
    (hD : DefinedOnce env l) (hd : PlainDefinitions env l) (hp : Reordered l l') (h : link env l sched fuel = some (.ok file)) :
    ∃ rounds file', ∀ fuel', rounds ≤ fuel' → link env l' sched' fuel' = some (.ok file') := by
  refine C140_libraries_partial (hp.clean hc) (hp.sound hf) (hp.relocs hr) (hp.names hn) (hp.flags hF) hv' (by rw [hp.archives]; exact ha)
    (hp.program S) (hp.readable hR) (hp.once hD) ?_
  intro n hneed
  replace hneed := hp.needs hneed
  rcases needed_defined hv hc ha (program_tables hc hf hr hn hF hv ha S) h hneed (fun s hs => (hd n s hs).1) with hgot | harr | ⟨p, s, hlib⟩ | ⟨s, hms, h0⟩
  · exact .inl hgot
  · exact .inr (.inr (.inl (.inr (hp.arrays harr))))
  · refine .inr (.inr (.inr ⟨p, s, ?_⟩))
    unfold LibraryHas at hlib ⊢
    rw [hp.options]
    exact hlib
  · rcases (hd n s hms).2 h0 with hg | hsec
    · exact .inr (.inl (hp.globally ⟨s, hms, h0, hg⟩))
    · exact .inr (.inr (.inl (.inl (hp.inSection hsec))))

/-! ### A program of two objects and a library -/

def trioFiles : List (Path × Bytes) := [(mainPath, List.replicate 16 0x90), (calleePath, List.replicate 8 0xc3), (libPath, b!"library")]
def trioElfs : List (Bytes × ElfFile) := [(List.replicate 16 0x90, mainElf), (List.replicate 8 0xc3, memberElf), (b!"library", libElf)]
def trioEnv : Env := tableEnv trioFiles trioElfs []
def trioLinker : Linker := { options := { Options.default with sharedLibs := [(libPath, false)] }, objects := [mainPath, calleePath], archives := [] }

theorem trio_clean : CleanFiles trioEnv trioLinker := CleanFiles.of_table (by decide +kernel)
theorem trio_sound : SoundFiles trioEnv trioLinker := by
  refine SoundFiles.of_table (by decide +kernel) (by decide) ?_ ?_
  · intro p hp
    have hp : p = libPath := by simpa [trioLinker] using hp
    subst hp
    refine ⟨by decide, fun d hd => ?_⟩
    have hd : some b!"library" = some d := by rw [← hd]; decide
    cases hd
    decide
  · intro p hp; cases hp
theorem trio_relocs : SoundRelocs trioEnv trioLinker := SoundRelocs.of_table (by decide +kernel) (by decide +kernel)
theorem trio_names : NamesSmall trioEnv trioLinker := NamesSmall.of_table (by decide +kernel)
theorem trio_flags : FewFlags trioEnv trioLinker [0, 6] := FewFlags.of_table (by decide +kernel) (by decide)
theorem trio_numbers : FieldNumbers trioEnv trioLinker := FieldNumbers.of_table (by decide +kernel)
theorem trio_once : DefinedOnce trioEnv trioLinker := DefinedOnce.of_table rfl (by decide) (by decide +kernel)
theorem trio_readable : ReadableFiles trioEnv trioLinker := by
  have h : ReadableFiles trioEnv { trioLinker with options := Options.default } := ReadableFiles.of_table rfl rfl (by decide +kernel) (by decide +kernel)
  have hi : ∀ {p d e}, InputAt trioEnv trioLinker p d e → InputAt trioEnv { trioLinker with options := Options.default } p d e := by
    intro p d e hi
    cases hi with
    | object a b c d => exact .object a b c d
    | member a b c d e f g => exact .member a b c d e f g
  refine ⟨h.objects, ?_, h.archives, fun _ _ _ _ a => h.sections _ _ _ _ (hi a), fun _ _ _ _ a => h.symbols _ _ _ _ (hi a),
    fun _ _ _ _ _ _ _ a => h.relocs _ _ _ _ _ _ _ (hi a)⟩
  intro p hp
  have hp : p = libPath := by simpa [trioLinker] using hp
  subst hp
  exact ⟨b!"library", libElf, by decide, rfl, by decide⟩
theorem trio_small : SmallProgram trioEnv trioLinker 100 1 := by
  refine ⟨by decide +kernel, by decide +kernel, ⟨by decide, ?_⟩, by decide +kernel⟩
  intro n
  have : (objectsOf trioEnv trioLinker).map (fun x => x.elf.definitions n) = [mainElf.definitions n, memberElf.definitions n] := rfl
  rw [this]
  have h1 : mainElf.definitions n = if b!"_start" = n then 1 else 0 := by
    simp only [ElfFile.definitions, mainElf, demoSym, STT_FUNC, List.filter, AMap.get?]
    by_cases h : b!"_start" = n <;> simp [h]
  have h2 : memberElf.definitions n = if b!"g" = n then 1 else 0 := by
    simp only [ElfFile.definitions, memberElf, demoSym, STT_FUNC, List.filter, AMap.get?]
    by_cases h : b!"g" = n <;> simp [h]
  rw [h1, h2]
  by_cases h : b!"_start" = n
  · subst h; decide
  · rw [if_neg h]
    by_cases h' : b!"g" = n
    · rw [if_pos h']; decide
    · rw [if_neg h']; decide
theorem trio_needs {n : Name} (h : Needs trioEnv trioLinker n) : n = b!"f" ∨ n = b!"g" := by
  obtain ⟨s, hs, h0, hb⟩ := h
  exact (by decide +kernel : ∀ x ∈ (tableSyms trioFiles trioElfs [mainPath, calleePath]).map (·.2),
    x.1.st_shndx = 0 → (x.1.st_info / 16 = 1 ∨ x.1.st_info / 16 = 2) → x.2 = b!"f" ∨ x.2 = b!"g") _ (Mentioned.of_table (files := trioFiles) (elfs := trioElfs) hs) h0 hb

/-- all requirements of `C98_libraries` are met -/
example (sched : LinkSched) (hv : sched.Valid) : ∃ rounds res, (∀ fuel, rounds ≤ fuel → link trioEnv trioLinker sched fuel = some res) ∧
    ((∃ file log w w' secs, res = .ok file ∧ LinkRun trioEnv trioLinker sched (objectsOf trioEnv trioLinker) log w w' file secs) ∨
      ∃ p k, res = .error (.err p k)) :=
  C98_libraries trio_clean trio_sound trio_relocs trio_names trio_flags trio_numbers hv rfl trio_small

/-- a program that calls a function of another object and one of a library: all requirements are met, and the link succeeds -/
theorem trio_complete (sched : LinkSched) (hv : sched.Valid) : ∃ rounds file, ∀ fuel, rounds ≤ fuel → link trioEnv trioLinker sched fuel = some (.ok file) := by
  refine C140_libraries_partial trio_clean trio_sound trio_relocs trio_names trio_flags hv rfl trio_small trio_readable trio_once ?_
  intro n hn
  rcases trio_needs hn with rfl | rfl
  · exact .inr (.inr (.inr ⟨libPath, _, .head _, b!"library", libElf, by decide, rfl, .tail _ (.head _), by decide⟩))
  · exact .inr (.inl ⟨_, ⟨⟨.object 1, calleePath, List.replicate 8 0xc3, memberElf⟩, .tail _ (.head _), .tail _ (.head _), rfl, by decide⟩, by decide, by decide⟩)

/-- the objects in the other order -/
example (sched : LinkSched) (hv : sched.Valid) : ∃ rounds file, ∀ fuel, rounds ≤ fuel →
    link trioEnv { trioLinker with objects := [calleePath, mainPath] } sched fuel = some (.ok file) := by
  obtain ⟨rounds, file, h⟩ := trio_complete LinkSched.id LinkSched.id_valid
  refine C141_libraries_partial trio_clean trio_sound trio_relocs trio_names trio_flags LinkSched.id_valid hv rfl trio_small trio_readable trio_once ?_
    ⟨.swap _ _ _, rfl⟩ (h rounds (Nat.le_refl _))
  · intro n s hs
    have := (by decide +kernel : ∀ x ∈ (tableSyms trioFiles trioElfs [mainPath, calleePath]).map (·.2),
      x.1.st_info / 16 ≤ 2 ∧ (x.1.st_shndx ≠ 0 → x.1.st_info / 16 = 1)) _ (Mentioned.of_table (files := trioFiles) (elfs := trioElfs) hs)
    exact ⟨this.1, fun h0 => .inl (this.2 h0)⟩

end Linker
end Dld
