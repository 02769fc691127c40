import Verif.Lemmas.Terminates
import Verif.Props.Driver
import Verif.Props.Got
/-! # The resolution loop -/
namespace Dld
open Writer Spec StringTable

namespace Linker
variable {env : Env} {l : Linker} {sched : LinkSched} {fuel : Nat}

/-! ## C60 -/

/-- **C60**: when the indexes of the archives are truthful, the link ends: there is a number of rounds after which the result is known,
and it is the same for every larger number. -/
theorem C60_terminates (ht : TruthfulIndexes env l) (hv : sched.Valid) :
    ∃ rounds res, ∀ fuel, rounds ≤ fuel → link env l sched fuel = some res := by
  have key : ∃ fuel, link env l sched fuel ≠ none := by
    cases h0 : Writer.new l.options with
    | error e => exact ⟨0, by rw [link_eq]; simp [gathered, h0]⟩
    | ok w =>
      cases h1 : loadAll env l w with
      | error e => exact ⟨0, by rw [link_eq]; simp [gathered, h0, h1]⟩
      | ok w1 =>
        obtain ⟨log, a1, a2⟩ := loadAll_calls (N := Unmet env l sched.symIter) h0 h1
        refine ⟨work w1 (offered env l) + 1, ?_⟩
        rw [link_eq]
        simp only [gathered, h0, h1, ne_eq, Option.map_eq_none_iff]
        exact resolveLoop_ends ht hv a2 a1 (Nat.lt_succ_self _)
  obtain ⟨fuel, hf⟩ := key
  obtain ⟨r, hr⟩ := Option.ne_none_iff_exists'.1 hf
  refine ⟨fuel, r, ?_⟩
  intro f hle
  obtain ⟨k, rfl⟩ := Nat.exists_eq_add_of_le hle
  exact link_mono hr

end Linker

theorem demo_truthful : TruthfulIndexes demoEnv demoLinker := by
  intro p hp data ar hd ha n m d e hn hm he ho
  have hp : p = arPath := List.mem_singleton.1 hp
  subst hp
  have hd' : demoEnv.read arPath = some b!"archive" := by decide +kernel
  rw [hd'] at hd
  cases hd
  have ha' : demoEnv.parseAr b!"archive" = some { index := [(b!"g", b!"g.o")], get := AMap.get? [(b!"g.o", List.replicate 8 0xc3)] } := by
    rfl
  rw [ha'] at ha
  cases ha
  have := AMap.mem_of_get? hn
  cases List.mem_singleton.1 this
  have hm : some (List.replicate 8 0xc3) = some d := hm
  cases hm
  have he' : demoEnv.parseElf (List.replicate 8 0xc3) = some memberElf := rfl
  rw [he'] at he
  cases he
  exact ⟨{ demoSym STT_FUNC 1 0 8 with st_name := 1 }, by decide, by decide, by decide, by decide⟩

example : ∃ rounds res, ∀ fuel, rounds ≤ fuel → Linker.link demoEnv demoLinker LinkSched.id fuel = some res :=
  Linker.C60_terminates demo_truthful LinkSched.id_valid

/-- an object file with nothing in it -/
def hollowElf : ElfFile where
  isObjectFile := true
  sectionHeaders := []
  secName := fun _ => none
  syms := []
  symName := fun _ => none
  shdrRelocs := []
  dynsyms := []
  dynName := fun _ => none

/-- the index of the archive says that the empty member has `g` -/
def liarEnv : Env :=
  tableEnv [(mainPath, List.replicate 16 0x90), (arPath, b!"archive")]
    [(List.replicate 16 0x90, mainElf), (b!"hollow", hollowElf)]
    [(b!"archive", { index := [(b!"g", b!"g.o")], get := AMap.get? [(b!"g.o", b!"hollow")] })]

def liarLinker : Linker := { options := Options.default, objects := [mainPath], archives := [arPath] }

/-- without the assumption the loop need not end -/
theorem C60_untruthful_diverges : ∀ fuel, Linker.link liarEnv liarLinker LinkSched.id fuel = none := by
  have h : (match Writer.new liarLinker.options with
      | .ok w => match Linker.loadAll liarEnv liarLinker w with
        | .ok w => match Linker.resolveRound liarEnv liarLinker LinkSched.id 0 (w.undefinedSymbols id) w with
          | .ok (w', n) => decide (w' = w) && decide ((w.undefinedSymbols id).length ≠ n)
          | .error _ => false
        | .error _ => false
      | .error _ => false) = true := by decide +kernel
  intro fuel
  rw [Linker.link_eq, Option.map_eq_none_iff]
  unfold Linker.gathered
  split at h
  · next w0 h0 =>
    split at h
    · next w1 h1 =>
      split at h
      · next w2 n h2 =>
        simp only [Bool.and_eq_true, decide_eq_true_eq] at h
        obtain ⟨rfl, hn⟩ := h
        rw [h0]
        simp only [h1]
        have key : ∀ fuel round, Linker.resolveLoop liarEnv liarLinker LinkSched.id fuel round (w2.undefinedSymbols id) w2 = none := by
          intro fuel
          induction fuel with
          | zero => intro round; rfl
          | succ fuel ih =>
            intro round
            rw [Linker.resolveLoop]
            have : Linker.resolveRound liarEnv liarLinker LinkSched.id round (w2.undefinedSymbols id) w2 = .ok (w2, n) := h2
            rw [this]
            simp only [if_neg hn]
            exact ih _
        exact key fuel 0
      · cases h
    · cases h
  · cases h

/-! ## C61 -/
namespace Linker
variable {env : Env} {l : Linker} {sched : LinkSched} {fuel : Nat}

/-- **C61**, what holds: an archive member takes part in a link only if the index of its archive gives it for a name that had no definition at
an earlier point of the link, when a number of complete files including all objects of the command line had been handed over, and that no shared library has. What is missing: the name
may have been defined between that point and the moment the member is linked. -/
theorem C61_needed_partial (hv : sched.Valid) (hc : CleanFiles env l) (hf : Fits env l sched fuel) {file : Bytes}
    (h : link env l sched fuel = some (.ok file)) : ∃ log loaded w w' secs, LinkRun env l sched loaded log w w' file secs ∧
      ∃ members, loaded = objectsOf env l ++ members ∧ ∀ x ∈ members, ∃ p m start data ar n q,
        x.source = .member p m start ∧ p ∈ l.archives ∧ env.read p = some data ∧ env.parseAr data = some ar ∧
        ar.memberOfSymbol n = some m ∧ ar.get m = some x.data ∧ env.parseElf x.data = some x.elf ∧
        q <+: log.take start ∧ WholeFiles env l q ∧ Unresolved (opsOf q) n ∧ NotInLibs env l n := by
  obtain ⟨log, loaded, w, w', secs, hr⟩ := link_run hv hc hf h
  obtain ⟨ms, e, hm⟩ := hr.calls.objects
  refine ⟨log, loaded, w, w', secs, hr, ms, e, ?_⟩
  intro x hx
  cases hm x hx with
  | mk hp hd ha hn hm he ho hs hq hu hl => exact ⟨_, _, _, _, _, _, _, rfl, hp, hd, ha, hn, hm, he, hq, hu.2, hu.1, hl⟩

end Linker

/-- the contents of a section, found with the writer's tables -/
theorem GoodRun.body_of_secs {opts : Options} {ops : List Op} {sched : Sched} {w w' : Writer} {file : Bytes} {secs : List Section}
    (h : GoodRun opts ops sched w w' file secs) {n : Name} {b : Bytes}
    (hb : (secsNamed w secs n).map (bodyOf file) = [b]) : bodyNamed file n = b := by
  rw [h.secsNamed_eq] at hb
  match he : sectionsNamed file n, hb with
  | [t], hb =>
    rw [(sectionNamed_one he).2.1]
    exact (List.cons.inj hb).1

/-- a link and the contents of sections of its file -/
theorem body_of_links {env : Env} {l : Linker} {fuel : Nat} (hc : CleanFiles env l) (bs : List (Name × Bytes))
    (h : links env l LinkSched.id fuel (fun w _ f s => bs.all fun e => decide ((secsNamed w s e.1).map (bodyOf f) = [e.2])) = true) :
    ∃ file, Linker.link env l LinkSched.id fuel = some (.ok file) ∧ Linker.Fits env l LinkSched.id fuel ∧ ∀ e ∈ bs, bodyNamed file e.1 = e.2 := by
  obtain ⟨log, loaded, w, w', f, s, h1, h2, h3, hp⟩ := LinkRun.of_links LinkSched.id_valid hc h
  refine ⟨f, h1, h2, ?_⟩
  intro e he
  exact h3.good.toGoodRun.body_of_secs (of_decide_eq_true (List.all_eq_true.1 hp e he))

/-- an object file with definitions of `f` and `g` -/
def bothElf (bind : Nat) : ElfFile where
  isObjectFile := true
  sectionHeaders := [{}, { demoSh SHT_PROGBITS 6 8 8 with sh_name := 1 }]
  secName := AMap.get? [(0, []), (1, b!".text")]
  syms := [{}, { demoSym STT_FUNC 1 0 8 with st_name := 1, st_info := bind * 16 + 2 }, { demoSym STT_FUNC 1 4 8 with st_name := 3, st_info := bind * 16 + 2 }]
  symName := AMap.get? [(0, []), (1, b!"f"), (3, b!"g")]
  shdrRelocs := []
  dynsyms := []
  dynName := fun _ => none

/-- an archive with two members that both define `f` and `g`; the index has one name for each -/
def bothEnv (bind : Nat) : Env :=
  tableEnv [(mainPath, List.replicate 16 0x90), (arPath, b!"archive")]
    [(List.replicate 16 0x90, mainElf), (List.replicate 8 0xc3, bothElf bind), (List.replicate 8 0xcc, bothElf bind)]
    [(b!"archive", { index := [(b!"f", b!"f.o"), (b!"g", b!"g.o")],
                     get := AMap.get? [(b!"f.o", List.replicate 8 0xc3), (b!"g.o", List.replicate 8 0xcc)] })]

theorem both_truthful : TruthfulIndexes (bothEnv 2) liarLinker := by
  intro p hp data ar hd ha n m d e hn hm he ho
  have hp : p = arPath := List.mem_singleton.1 hp
  subst hp
  have hd' : (bothEnv 2).read arPath = some b!"archive" := by decide +kernel
  rw [hd'] at hd
  cases hd
  cases (show some _ = some ar from ha)
  rcases List.mem_cons.1 (AMap.mem_of_get? hn) with h | h
  · cases h
    cases (show some (List.replicate 8 0xc3) = some d from hm)
    cases (show some (bothElf 2) = some e from he)
    exact ⟨_, List.mem_cons_of_mem _ (.head _), rfl, by decide, by decide⟩
  · cases List.mem_singleton.1 h
    cases (show some (List.replicate 8 0xcc) = some d from hm)
    cases (show some (bothElf 2) = some e from he)
    exact ⟨_, List.mem_cons_of_mem _ (List.mem_cons_of_mem _ (.head _)), rfl, by decide, by decide⟩

/-- **C61** is violated: each of the members defines both names, so that after linking one there is no use for the other. Both are in the output, or,
when the definitions are global, the link fails. -/
theorem C61_moment_violated :
    (∀ n ∈ [b!"f", b!"g"], ∀ b, ∃ s ∈ (bothElf b).syms, (bothElf b).symName s.st_name = some n ∧ s.st_shndx ≠ 0) ∧
    (∃ file, Linker.link (bothEnv 2) liarLinker LinkSched.id 5 = some (.ok file) ∧ TruthfulIndexes (bothEnv 2) liarLinker ∧
      (bodyNamed file b!".text").drop 16 = List.replicate 8 0xc3 ++ List.replicate 8 0xcc) ∧
    ∃ n, Linker.link (bothEnv 1) liarLinker LinkSched.id 5 = some (.error (.err arPath (.alreadyDefined n mainPath))) := by
  refine ⟨?_, ?_, b!"f", by decide +kernel⟩
  · intro n hn b
    rcases List.mem_cons.1 hn with rfl | hn
    · exact ⟨_, List.mem_cons_of_mem _ (.head _), rfl, Nat.one_ne_zero⟩
    · cases List.mem_singleton.1 hn
      exact ⟨_, List.mem_cons_of_mem _ (List.mem_cons_of_mem _ (.head _)), rfl, Nat.one_ne_zero⟩
  · obtain ⟨file, h1, _, h2⟩ := body_of_links (env := bothEnv 2) (l := liarLinker) (fuel := 5) (CleanFiles.of_table (by decide +kernel))
      [(b!".text", [144, 144, 144, 144, 144, 31, 32, 32, 0, 144, 26, 32, 32, 0, 144, 144] ++ (List.replicate 8 0xc3 ++ List.replicate 8 0xcc))]
      (by decide +kernel)
    refine ⟨file, h1, both_truthful, ?_⟩
    rw [h2 _ (.head _)]
    rfl

/-! ## C62 -/

theorem newlyNeeded_sub {seen : List Name} {ops : List Op} {n : Name} (h : n ∈ newlyNeeded seen ops) : Op.needed n ∈ ops := by
  induction ops generalizing seen with
  | nil => cases h
  | cons op ops ih =>
    cases op with
    | needed m =>
      simp only [newlyNeeded] at h
      split at h
      · exact List.mem_cons_of_mem _ (ih h)
      · rcases List.mem_cons.1 h with rfl | h
        · exact .head _
        · exact List.mem_cons_of_mem _ (ih h)
    | dynsym => exact List.mem_cons_of_mem _ (ih h)
    | push => exact List.mem_cons_of_mem _ (ih h)
    | sym => exact List.mem_cons_of_mem _ (ih h)
    | reloc => exact List.mem_cons_of_mem _ (ih h)

/-- a library is reported as needed for a symbol it has -/
theorem Calls.needed_import {env : Env} {l : Linker} {N : List Call → Name → Prop} {loaded : List Loaded} {log : List Call}
    (h : Calls env l N loaded log) {m : Name} (hm : Op.needed m ∈ opsOf log) :
    ∃ p s n r, p.file = some m ∧ Op.dynsym s n p r ∈ opsOf log := by
  obtain ⟨a, c, b, el, hc'⟩ := mem_opsOf hm
  cases h.just a c b el with
  | «section» hx hi ht hn hd => cases hc'
  | symbol hx hj hn hs => cases hc'
  | reloc hx hk h0 hs hr hy => cases hc'
  | dynsym hp hd he hj hn hq hm => cases hc'
  | @needed p j f b' op hf hb =>
    cases hc'
    subst hb
    have hJ := h.just b' ⟨.library p, .dynsym j, op⟩ _ (by rw [el, List.append_assoc]; rfl)
    generalize hc : (⟨.library p, .dynsym j, op⟩ : Call) = c at hJ
    have h2 : Item.dynsym j = c.item := congrArg Call.item (a₁ := ⟨.library p, .dynsym j, op⟩) hc
    cases hJ with
    | «section» hx' hi ht hn hd => cases h2
    | symbol hy hj' hn hs => cases h2
    | reloc hx' hk h0 hs hr hy => cases h2
    | needed hf => cases h2
    | @dynsym _ _ _ _ s n y _ hp hd he hj hn hq hm =>
      cases hc
      exact ⟨p, s, n, y, hf, List.mem_map.2 ⟨_, by rw [el]; exact List.mem_append_left _ (List.mem_append_right _ (.head _)), rfl⟩⟩

/-- an entry of the dynamic symbol table comes from an import -/
theorem GoodLink.dyn_source {opts : Options} {ops : List Op} {sched : Sched} {w w' : Writer} {file : Bytes} {secs : List Section}
    (h : GoodLink opts ops sched w w' file secs) {k : Nat} {n : Name}
    (hn : dynName file k = some n) (hne : n ≠ []) : ∃ e path r, Op.dynsym e n path r ∈ ops := by
  obtain ⟨ns, nd, T⟩ := h.run.hist.tableFacts
  obtain ⟨st, hst⟩ := h.run.stages
  obtain ⟨a, b, c, d, e, f, X⟩ := h.tables
  obtain ⟨_, b1, _⟩ := sectionNamed_one X.mdynsym.2.2
  have hy : ∃ y, (symsOf (bodyNamed file b!".dynsym"))[k]? = some y := by
    unfold dynName at hn
    cases hy : (symsOf (bodyNamed file b!".dynsym"))[k]? with
    | none => rw [hy] at hn; cases hn
    | some y => exact ⟨y, rfl⟩
  obtain ⟨y, hy⟩ := hy
  rw [b1, X.dyns, List.getElem?_map, Option.map_eq_some_iff] at hy
  obtain ⟨s, hs, rfl⟩ := hy
  have hview := (st.final_unplace.2.trans (st.linkRels h.run.valid h.run.hist).dyn)
  rw [hst] at hview
  obtain ⟨j, hj⟩ := (SymbolTable.mem_sorted h.run.valid.dynIter).1 (List.mem_of_getElem? hs)
  obtain ⟨z, hz, ez⟩ := SymbolTable.view_get_some hview (r := .named j) hj
  obtain ⟨n', hn', hj', hzn, _⟩ := T.dynNamed j z hz
  have hsn : s.sym.st_name = u32 (nameOff nd n') := (congrArg (·.sym.st_name) ez).trans (hzn.trans hj')
  rcases T.dynMention j z hz with h0 | ⟨e, n'', path, hop, hty⟩
  · exfalso
    have h1 : nameOff nd [] = 0 := nameOff_nil T.dynstr.head
    have hnil : [] ∈ nd := by
      have := T.dynstr.head
      cases nd with
      | nil => cases this
      | cons x l => simp only [List.head?_cons, Option.some.injEq] at this; rw [this]; exact .head _
    have e' : n' = [] := u32_nameOff_inj T.dynstr h.dynstr hn' hnil (by rw [← hj', h0, h1]; rfl)
    have := h.dynName_of T hs hn' (by rw [e']; simp) hsn
    rw [hn, e'] at this
    exact hne (Option.some.inj this)
  · have := (T.inv.dref _ _ _ _ hop).2 hty
    have e' : n' = n'' := u32_nameOff_inj T.dynstr h.dynstr hn' (T.dynMem _ (mem_dynNames hop)) (by rw [← hj', SymbolRef.named.inj this])
    have := h.dynName_of T hs hn' (by rw [e']; exact h.symNames.dyn _ _ _ _ hop) hsn
    rw [hn] at this
    rw [Option.some.inj this, e']
    exact ⟨e, path, _, hop⟩

namespace Linker
variable {env : Env} {l : Linker} {sched : LinkSched} {fuel : Nat}

/-- The file names of the libraries and of the dynamic linker are proper file names, and no library has a symbol that is
called like the file of a library. -/
structure LibraryNames (env : Env) (l : Linker) : Prop where
  libs : ∀ p ∈ l.options.sharedLibs.map (·.1), ∀ f ∈ p.file, (0 : UInt8) ∉ f ∧ f ≠ []
  linker : ∀ f ∈ l.options.dynamicLinker.file, (0 : UInt8) ∉ f
  symbols : ∀ p ∈ l.options.sharedLibs.map (·.1), ∀ f ∈ p.file, ∀ p' s, ¬ LibraryHas env l p' s f

/-- **C62**, what holds: every dynamic symbol of the output, and every global or weak symbol left undefined in it, has an entry in the dynamic symbol table of a
shared library whose file name is in a `DT_NEEDED` entry. What is missing: the entry in the library may itself be undefined. -/
theorem C62_needed_partial (hv : sched.Valid) (hc : CleanFiles env l) (hf : Fits env l sched fuel) (hl : LibraryNames env l) {file : Bytes}
    (h : link env l sched fuel = some (.ok file)) {n : Name}
    (hn : (n ≠ [] ∧ ∃ k, dynName file k = some n) ∨ (∃ y ∈ symsOf (bodyNamed file b!".symtab"), y.shndx = 0 ∧ (y.info / 16 = 1 ∨ y.info / 16 = 2) ∧
      cstrAt (bodyNamed file b!".strtab") y.name = some n)) :
    ∃ p s f, LibraryHas env l p s n ∧ p.file = some f ∧
      some f ∈ neededNames (bodyNamed file b!".dynamic") (bodyNamed file b!".dynstr") := by
  obtain ⟨log, loaded, w, w', secs, hr⟩ := link_run hv hc hf h
  have hop : ∃ e path r, Op.dynsym e n path r ∈ opsOf log := by
    rcases hn with ⟨hne, k, hk⟩ | ⟨y, hy, h0, hb, hs⟩
    · exact hr.good.dyn_source hk hne
    · obtain ⟨n', e, path, r, hs', hop⟩ := C59_imported hr hy h0 hb
      rw [hs] at hs'
      rw [Option.some.inj hs']
      exact ⟨e, path, r, hop⟩
  obtain ⟨e, path, r, hop⟩ := hop
  have hlib := (hr.calls.dynsym hop).1
  obtain ⟨a, c, b, el, hc'⟩ := mem_opsOf hop
  have hj := hr.calls.just a c b el
  have hneed : ∃ j, c = ⟨.library path, .dynsym j, .dynsym e n path r⟩ := by
    cases hj with
    | «section» hx hi ht hn hd => cases hc'
    | symbol hx hj hn hs => cases hc'
    | reloc hx hk h0 hs hr hy => cases hc'
    | needed hf => cases hc'
    | dynsym hp hd he hj hn hq hm => cases hc'; exact ⟨_, rfl⟩
  obtain ⟨j, rfl⟩ := hneed
  obtain ⟨f, b', rfl, hpf⟩ := hr.calls.needed a path j _ b el
  refine ⟨path, e, f, hlib, hpf, ?_⟩
  have hfn := hl.libs path hlib.1 f hpf
  obtain ⟨d, s, g, k1, k2, k3, k4, k5, k6, k7⟩ := C52_needed hr.good.toGoodRun (by
    intro m hm
    obtain ⟨p, e, n, r, hp, hpm⟩ := hr.calls.needed_import hm
    exact (hl.libs p (hr.calls.dynsym hpm).1.1 m hp).1) hl.linker
  rw [(sectionNamed_one k1).2.1, (sectionNamed_one k2).2.1]
  refine k7 f (by rw [el]; simp [opsOf]) hfn.2 ?_
  intro s' p' r' hop'
  exact hl.symbols path hlib.1 f hpf _ _ (hr.calls.dynsym hop').1

end Linker

theorem demo_libraries : Linker.LibraryNames demoEnv demoLinker := by
  have hlibs : demoLinker.options.sharedLibs.map (·.1) = [libPath] := rfl
  refine ⟨?_, ?_, ?_⟩
  · rw [hlibs]
    intro p hp f hf
    cases List.mem_singleton.1 hp
    cases hf
    decide
  · intro f hf
    have hf : some b!"ld-linux-x86-64.so.2" = some f := hf
    cases hf
    decide
  · rw [hlibs]
    intro p hp f hf p' s ⟨h1, data, e, h2, h3, h4, h5⟩
    cases List.mem_singleton.1 hp
    cases hf
    rw [hlibs] at h1
    cases List.mem_singleton.1 h1
    cases (show some b!"library" = some data from h2)
    cases (show some libElf = some e from h3)
    have h := AMap.mem_of_get? (show AMap.get? [(0, []), (1, b!"f")] s.st_name = some b!"libf.so" from h5)
    revert h
    simp

example : ∃ file, Linker.link demoEnv demoLinker LinkSched.id 5 = some (.ok file) ∧
    ∃ y ∈ symsOf (bodyNamed file b!".symtab"), y.shndx = 0 ∧ y.info / 16 = 1 ∧ cstrAt (bodyNamed file b!".strtab") y.name = some b!"f" ∧
    ∃ p s f, LibraryHas demoEnv demoLinker p s b!"f" ∧ p.file = some f ∧
      some f ∈ neededNames (bodyNamed file b!".dynamic") (bodyNamed file b!".dynstr") := by
  have hl : links demoEnv demoLinker LinkSched.id 5 (fun w w' _ _ =>
      (symsNamed Sched.id w w' b!"f").any fun y => y.shndx == 0 && y.info / 16 == 1) = true := by decide +kernel
  obtain ⟨log, loaded, w, w', f, s, h1, h2, h3, hp⟩ := LinkRun.of_links LinkSched.id_valid demo_files hl
  have e := h3.good.symsNamed_eq b!"f"
  rw [show LinkSched.id.toSched = Sched.id from rfl] at e
  rw [e, List.any_eq_true] at hp
  obtain ⟨y, hy, hp⟩ := hp
  simp only [Bool.and_eq_true, beq_iff_eq] at hp
  have hy1 := (List.mem_filter.1 hy).1
  have hy2 := (List.mem_filter.1 hy).2
  have hy2 : cstrAt (bodyNamed f b!".strtab") y.name = some b!"f" := by simpa using hy2
  exact ⟨f, h1, y, hy1, hp.1, hp.2, hy2, Linker.C62_needed_partial LinkSched.id_valid demo_files h2 demo_libraries h1
    (.inr ⟨y, hy1, hp.1, .inl hp.2, hy2⟩)⟩

/-- a shared library that itself needs `f` and `g` from somewhere -/
def needyElf : ElfFile where
  isObjectFile := false
  sectionHeaders := []
  secName := fun _ => none
  syms := []
  symName := fun _ => none
  shdrRelocs := []
  dynsyms := [{}, { demoSym STT_FUNC 0 0 0 with st_name := 1 }, { demoSym STT_FUNC 0 0 0 with st_name := 3 }]
  dynName := AMap.get? [(0, []), (1, b!"f"), (3, b!"g")]

def needyEnv : Env :=
  tableEnv [(mainPath, List.replicate 16 0x90), (libPath, b!"library")] [(List.replicate 16 0x90, mainElf), (b!"library", needyElf)] []

def needyLinker : Linker :=
  { options := { Options.default with sharedLibs := [(libPath, false)] }, objects := [mainPath], archives := [] }

/-- **C62** is violated: the link succeeds although nothing defines `f` and `g`. -/
theorem C62_defined_violated : ∃ file, Linker.link needyEnv needyLinker LinkSched.id 5 = some (.ok file) ∧
    (∃ y ∈ symsOf (bodyNamed file b!".symtab"), y.shndx = 0 ∧ y.info / 16 = 1 ∧ cstrAt (bodyNamed file b!".strtab") y.name = some b!"f") ∧
    ∀ p s n, LibraryHas needyEnv needyLinker p s n → s.st_shndx = 0 := by
  have hl : links needyEnv needyLinker LinkSched.id 5 (fun w w' _ _ =>
      (symsNamed Sched.id w w' b!"f").any fun y => y.shndx == 0 && y.info / 16 == 1) = true := by decide +kernel
  obtain ⟨log, loaded, w, w', f, s, h1, h2, h3, hp⟩ := LinkRun.of_links LinkSched.id_valid (CleanFiles.of_table (by decide +kernel)) hl
  have e := h3.good.symsNamed_eq b!"f"
  rw [show LinkSched.id.toSched = Sched.id from rfl] at e
  rw [e, List.any_eq_true] at hp
  obtain ⟨y, hy, hp⟩ := hp
  simp only [Bool.and_eq_true, beq_iff_eq] at hp
  refine ⟨f, h1, ⟨y, (List.mem_filter.1 hy).1, hp.1, hp.2, by simpa using (List.mem_filter.1 hy).2⟩, ?_⟩
  intro p s n ⟨g1, data, e, g2, g3, g4, g5⟩
  cases List.mem_singleton.1 (show p ∈ [libPath] from g1)
  cases (show some b!"library" = some data from g2)
  cases (show some needyElf = some e from g3)
  have : ∀ s ∈ needyElf.dynsyms, s.st_shndx = 0 := by decide
  exact this s g4

/-! ## C63 -/

/-- **C63** is violated: whether a library was given under `--as-needed` makes no difference. -/
theorem Linker.C63_flag_violated (env : Env) (l : Linker) (sched : LinkSched) (fuel : Nat) (libs : List (Path × Bool))
    (h : libs.map (·.1) = l.options.sharedLibs.map (·.1)) :
    link env { l with options := { l.options with sharedLibs := libs } } sched fuel = link env l sched fuel := by
  have hround : ∀ round und w, resolveRound env { l with options := { l.options with sharedLibs := libs } } sched round und w =
      resolveRound env l sched round und w := by
    intro round und w
    simp only [resolveRound, findInLibs, h]
    rfl
  have hloop : ∀ fuel round und w, resolveLoop env { l with options := { l.options with sharedLibs := libs } } sched fuel round und w =
      resolveLoop env l sched fuel round und w := by
    intro fuel
    induction fuel with
    | zero => intros; rfl
    | succ fuel ih =>
      intro round und w
      simp only [resolveLoop, hround, ih]
  have hg : gathered env { l with options := { l.options with sharedLibs := libs } } sched fuel = gathered env l sched fuel := by
    unfold gathered
    simp only [hloop]
    rfl
  rw [link_eq, link_eq, hg]
  rfl

/-- **C63**, what holds: every library named in a `DT_NEEDED` entry (the first is the dynamic linker's) has a symbol that
some linked file mentions without a definition. The converse is part of C62. -/
theorem Linker.C63_used_partial {env : Env} {l : Linker} {sched : LinkSched} {fuel : Nat} (hv : sched.Valid) (hc : CleanFiles env l)
    (hf : Fits env l sched fuel) (hl : LibraryNames env l) {file : Bytes} (h : link env l sched fuel = some (.ok file)) :
    ∃ log loaded w w' secs, LinkRun env l sched loaded log w w' file secs ∧
      ∃ fs : List Name, neededNames (bodyNamed file b!".dynamic") (bodyNamed file b!".dynstr") = l.options.dynamicLinker.file :: fs.map some ∧
      ∀ f ∈ fs, ∃ p s n s', p.file = some f ∧ LibraryHas env l p s n ∧ MentionedIn loaded s' n ∧ s'.st_shndx = 0 := by
  obtain ⟨log, loaded, w, w', secs, hr⟩ := link_run hv hc hf h
  obtain ⟨d, s, g, k1, k2, k3, k4, k5, k6, k7⟩ := C52_needed hr.good.toGoodRun (by
    intro m hm
    obtain ⟨p, e, n, r, hp, hpm⟩ := hr.calls.needed_import hm
    exact (hl.libs p (hr.calls.dynsym hpm).1.1 m hp).1) hl.linker
  refine ⟨log, loaded, w, w', secs, hr, newlyNeeded [g, []] (opsOf log), ?_, ?_⟩
  · rw [(sectionNamed_one k1).2.1, (sectionNamed_one k2).2.1, k4, k3, List.map_cons]
  · intro f hf
    obtain ⟨p, e, n, r, hp, hop⟩ := hr.calls.needed_import (newlyNeeded_sub hf)
    obtain ⟨h1, q, ⟨t, rfl⟩, hu, _⟩ := hr.calls.dynsym hop
    obtain ⟨s', sec, hm, h0, _⟩ := hu.wanted
    refine ⟨p, e, n, s', hp, h1, hr.calls.mention_iff.2 ⟨sec, ?_⟩, h0⟩
    obtain ⟨⟨path, y, hs⟩, h3⟩ := hm
    exact ⟨⟨path, y, by rw [opsOf_append]; exact List.mem_append_left _ hs⟩, h3⟩

/-- an object file without any need -/
def soloElf : ElfFile where
  isObjectFile := true
  sectionHeaders := [{}, { demoSh SHT_PROGBITS 6 16 16 with sh_name := 1 }]
  secName := AMap.get? [(0, []), (1, b!".text")]
  syms := [{}, { demoSym STT_FUNC 1 4 12 with st_name := 1 }]
  symName := AMap.get? [(0, []), (1, b!"_start")]
  shdrRelocs := []
  dynsyms := []
  dynName := fun _ => none

def soloEnv : Env :=
  tableEnv [(mainPath, List.replicate 16 0x90), (libPath, b!"library")] [(List.replicate 16 0x90, soloElf), (b!"library", libElf)] []

/-- **C63** is violated: a library without a symbol that is needed gets no entry, although it was not given under `--as-needed`. -/
theorem C63_needed_violated : ∃ file, Linker.link soloEnv needyLinker LinkSched.id 5 = some (.ok file) ∧
    (libPath, false) ∈ needyLinker.options.sharedLibs ∧
    neededNames (bodyNamed file b!".dynamic") (bodyNamed file b!".dynstr") = [some b!"ld-linux-x86-64.so.2"] := by
  have hl : links soloEnv needyLinker LinkSched.id 5 (fun w _ f s =>
      match (secsNamed w s b!".dynamic").map (bodyOf f), (secsNamed w s b!".dynstr").map (bodyOf f) with
      | [d], [e] => neededNames d e == [some b!"ld-linux-x86-64.so.2"]
      | _, _ => false) = true := by decide +kernel
  obtain ⟨log, loaded, w, w', f, s, h1, h2, h3, hp⟩ := LinkRun.of_links LinkSched.id_valid (CleanFiles.of_table (by decide +kernel)) hl
  refine ⟨f, h1, by decide, ?_⟩
  split at hp
  · next d e hd he =>
    rw [h3.good.toGoodRun.body_of_secs hd, h3.good.toGoodRun.body_of_secs he]
    simpa using hp
  · cases hp

example : ∃ file, Linker.link demoEnv demoLinker LinkSched.id 5 = some (.ok file) ∧ Linker.Fits demoEnv demoLinker LinkSched.id 5 ∧
    Linker.LibraryNames demoEnv demoLinker := by
  obtain ⟨log, loaded, w, w', f, s, h1, h2, h3, hp⟩ := LinkRun.of_links LinkSched.id_valid demo_files demo_links
  exact ⟨f, h1, h2, demo_libraries⟩

/-! ## C64 -/
namespace Linker
variable {env : Env} {l : Linker} {sched : LinkSched} {fuel : Nat}

/-- **C64**, what holds: when a relocation section follows the section its `sh_info` names, which is copied to the output, each
of its relocations against a symbol is given to the writer for that section, with the symbol it names. What is missing: relocation sections at other places. -/
theorem C64_section_partial (hv : sched.Valid) (hc : CleanFiles env l) (hf : Fits env l sched fuel) {file : Bytes}
    (h : link env l sched fuel = some (.ok file)) : ∃ log loaded w w' secs, LinkRun env l sched loaded log w w' file secs ∧
      ∀ x ∈ loaded, ∀ k pos j rel rsh tsh, (k, pos, j, rel) ∈ x.elf.relocs → rel.r_sym ≠ 0 →
        x.elf.sectionHeaders[pos]? = some rsh → rsh.sh_info = pos - 1 →
        x.elf.sectionHeaders[rsh.sh_info]? = some tsh → tsh.sh_type ∉ auxiliaryTypes →
        ∃ a b s y r, log = a ++ ⟨x.source, .reloc k j,
            .reloc { r_offset := rel.r_offset, r_info := rel.r_sym * 2 ^ 32 + rel.r_type, r_addend := rel.r_addend.getD 0 } y r x.path⟩ :: b ∧
          x.elf.syms[rel.r_sym]? = some s ∧ SectionAt a x.source rsh.sh_info r ∧ SymbolAt a x.source s y := by
  obtain ⟨log, loaded, w, w', secs, hr⟩ := link_run hv hc hf h
  refine ⟨log, loaded, w, w', secs, hr, ?_⟩
  intro x hx k pos j rel rsh tsh h1 h2 h3 h4 h5 h6
  rw [h4] at h5 ⊢
  exact hr.calls.reloc_call hx h1 h2 h5 h6

end Linker

example : ∃ x ∈ objectsOf demoEnv demoLinker, ∃ k pos j rel rsh tsh, (k, pos, j, rel) ∈ x.elf.relocs ∧ rel.r_sym ≠ 0 ∧
    x.elf.sectionHeaders[pos]? = some rsh ∧ rsh.sh_info = pos - 1 ∧ x.elf.sectionHeaders[rsh.sh_info]? = some tsh ∧ tsh.sh_type ∉ auxiliaryTypes :=
  ⟨_, .head _, 0, 2, 0, ⟨5, some (-4), 2, R_X86_64_PLT32⟩, _, _, .head _, by decide, rfl, rfl, rfl, by decide⟩

/-- the relocations of `.text` are not right behind it -/
def apartElf : ElfFile where
  isObjectFile := true
  sectionHeaders :=
    [{}, { demoSh SHT_PROGBITS 6 8 8 with sh_name := 1 }, { demoSh SHT_PROGBITS 3 8 8 with sh_name := 7, sh_offset := 8 },
     { demoSh SHT_RELA 0 24 8 with sh_name := 13, sh_info := 1 }]
  secName := AMap.get? [(0, []), (1, b!".text"), (7, b!".data"), (13, b!".rela.text")]
  syms := [{}, { demoSym STT_FUNC 1 0 8 with st_name := 1 }]
  symName := AMap.get? [(0, []), (1, b!"_start")]
  shdrRelocs := [(3, [⟨0, some 0, 1, R_X86_64_64⟩])]
  dynsyms := []
  dynName := fun _ => none

def apartEnv : Env := tableEnv [(mainPath, List.replicate 16 0x90)] [(List.replicate 16 0x90, apartElf)] []

/-- **C64** is violated: the relocation section is for section 1, `.text`; but `.text` is copied unchanged, and it is `.data` that is changed. -/
theorem C64_section_violated : ∃ file, Linker.link apartEnv bareLinker LinkSched.id 5 = some (.ok file) ∧
    (apartElf.sectionHeaders[3]?.map (·.sh_info)) = some 1 ∧ (apartElf.sectionHeaders[1]?.bind fun sh => apartElf.secName sh.sh_name) = some b!".text" ∧
    bodyNamed file b!".text" = List.replicate 8 0x90 ∧ bodyNamed file b!".data" ≠ List.replicate 8 0x90 := by
  obtain ⟨file, h1, _, h2⟩ := body_of_links (env := apartEnv) (l := bareLinker) (fuel := 5) (CleanFiles.of_table (by decide +kernel))
    [(b!".text", List.replicate 8 0x90), (b!".data", [16, 32, 32, 0, 0, 0, 0, 0])] (by decide +kernel)
  refine ⟨file, h1, rfl, rfl, h2 _ (.head _), ?_⟩
  rw [h2 _ (.tail _ (.head _))]
  decide

/-! ## C66 -/

def ar1Path : Path := ⟨b!"lib1.a", some b!"lib1.a"⟩
def ar2Path : Path := ⟨b!"lib2.a", some b!"lib2.a"⟩

/-- two archives that both have `g` -/
def twoEnv : Env :=
  tableEnv [(mainPath, List.replicate 16 0x90), (libPath, b!"library"), (ar1Path, b!"archive1"), (ar2Path, b!"archive2")]
    [(List.replicate 16 0x90, mainElf), (b!"library", libElf), (List.replicate 8 0xc3, memberElf), (List.replicate 8 0xcc, memberElf)]
    [(b!"archive1", { index := [(b!"g", b!"g.o")], get := AMap.get? [(b!"g.o", List.replicate 8 0xc3)] }),
     (b!"archive2", { index := [(b!"g", b!"g.o")], get := AMap.get? [(b!"g.o", List.replicate 8 0xcc)] })]

def twoLinker : Linker :=
  { options := { Options.default with sharedLibs := [(libPath, false)] }, objects := [mainPath], archives := [ar1Path, ar2Path] }

/-- the other order of the archives, which are kept in a hash set -/
def reversedSched : LinkSched := { LinkSched.id with archives := List.reverse }

theorem reversed_valid : reversedSched.Valid :=
  ⟨Sched.id_valid, fun _ _ _ => .rfl, fun _ _ _ => .rfl, fun _ _ _ => .rfl, fun l => List.reverse_perm l⟩

/-- the other order of the symbol table -/
def reversedSyms : LinkSched := { LinkSched.id with symIter := List.reverse }

theorem reversedSyms_valid : reversedSyms.Valid :=
  ⟨⟨fun l => List.reverse_perm l, fun _ => .rfl, fun _ => .rfl, fun _ => .rfl⟩, fun _ _ _ => .rfl, fun _ _ _ => .rfl, fun _ _ _ => .rfl, fun _ => .rfl⟩

/-- **C66** is violated: two links of the same files succeed with different bytes, one because of the order in which the symbols of a hash table are visited, the other because of the order in which
archives are. -/
theorem C66_order_violated :
    (∃ f f', Linker.link needyEnv needyLinker LinkSched.id 5 = some (.ok f) ∧ Linker.link needyEnv needyLinker reversedSyms 5 = some (.ok f') ∧
      f ≠ f') ∧
    ∃ f f', Linker.link twoEnv twoLinker LinkSched.id 5 = some (.ok f) ∧ Linker.link twoEnv twoLinker reversedSched 5 = some (.ok f') ∧
      f ≠ f' := by
  have h1 : (match Linker.link needyEnv needyLinker LinkSched.id 5, Linker.link needyEnv needyLinker reversedSyms 5 with
    | some (.ok f), some (.ok f') => decide (f ≠ f')
    | _, _ => false) = true := by decide +kernel
  have h2 : (match Linker.link twoEnv twoLinker LinkSched.id 5, Linker.link twoEnv twoLinker reversedSched 5 with
    | some (.ok f), some (.ok f') => decide (f[8208]? ≠ f'[8208]?)
    | _, _ => false) = true := by decide +kernel
  constructor
  · split at h1
    · next f f' e e' => exact ⟨f, f', e, e', of_decide_eq_true h1⟩
    · cases h1
  · split at h2
    · next f f' e e' => exact ⟨f, f', e, e', fun e => of_decide_eq_true h2 (by rw [e])⟩
    · cases h2

end Dld
