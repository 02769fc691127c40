import Verif.Spec.Shuffled
import Verif.Props.Reached
import Verif.Props.ObjectOrder
/-! # Objects and archives in another order: C157 -/
namespace Dld
open Writer Spec StringTable

section
variable {env : Env} {l l' : Linker}

theorem Shuffled.options (h : Shuffled l l') : l'.options = l.options := by rw [h.rest]

theorem Shuffled.symm (h : Shuffled l l') : Shuffled l' l := by
  refine ⟨h.objects.symm, h.archives.symm, ?_⟩
  rw [h.rest]

theorem Shuffled.at (h : Shuffled l l') {p : Path} {d : Bytes} {e : ElfFile} (hi : InputAt env l' p d e) : InputAt env l p d e := by
  cases hi with
  | object hp hd he ho => exact .object (h.objects.mem_iff.1 hp) hd he ho
  | member hp hd ha hn hm he ho => exact .member (h.archives.mem_iff.1 hp) hd ha hn hm he ho

theorem Shuffled.input (h : Shuffled l l') {e : ElfFile} (hi : IsInput env l' e) : IsInput env l e := by
  cases hi with
  | object hp hd he ho => exact .object (h.objects.mem_iff.1 hp) hd he ho
  | member hp hd ha hm he ho => exact .member (h.archives.mem_iff.1 hp) hd ha hm he ho

theorem Shuffled.inputSym (h : Shuffled l l') {p : Path} {d : Bytes} {j : Nat} {s : Sym} {n : Name} (hi : InputSym env l' p d j s n) :
    InputSym env l p d j s n := by
  obtain ⟨e, h1, h2⟩ := hi
  exact ⟨e, h.at h1, h2⟩

theorem Shuffled.elfs (h : Shuffled l l') : ((objectsOf env l').map (·.elf)).Perm ((objectsOf env l).map (·.elf)) := by
  rw [objectsOf_elf, objectsOf_elf]
  exact h.objects.filterMap _

theorem Shuffled.loaded (h : Shuffled l l') {x : Loaded} (hx : x ∈ objectsOf env l') : ∃ y ∈ objectsOf env l, y.elf = x.elf :=
  List.mem_map.1 (h.elfs.mem_iff.1 (List.mem_map_of_mem hx))

theorem Shuffled.mentioned (h : Shuffled l l') {s : Sym} {n : Name} (hm : MentionedIn (objectsOf env l') s n) : MentionedIn (objectsOf env l) s n := by
  obtain ⟨x, hx, hs⟩ := hm
  obtain ⟨y, hy, e⟩ := h.loaded hx
  exact ⟨y, hy, by rw [e]; exact hs⟩

theorem Shuffled.clean (h : Shuffled l l') (hc : CleanFiles env l) : CleanFiles env l' := by
  refine ⟨fun e sh n he => hc.names e sh n (h.input he), fun e sh he => hc.first e sh (h.input he), fun e sh he => hc.unnamed e sh (h.input he),
    fun e sh e' sh' n he hs he' => hc.nobits e sh e' sh' n (h.input he) hs (h.input he'), fun e s n he => hc.symbols e s n (h.input he), ?_⟩
  intro p s n hl
  refine hc.dynsyms p s n ?_
  unfold LibraryHas at hl ⊢
  rwa [← h.options]

theorem Shuffled.sound (h : Shuffled l l') (hc : SoundFiles env l) : SoundFiles env l' := by
  refine ⟨by rw [h.options]; exact hc.loader, fun p d e sh hi => hc.inside p d e sh (h.at hi), fun p d e sh hi => hc.unnamed p d e sh (h.at hi),
    fun p d e s n hi => hc.nameless p d e s n (h.at hi), fun p d e k pos j rel hi => hc.symbols p d e k pos j rel (h.at hi), ?_, ?_⟩
  · rw [h.options]; exact hc.libraries
  · exact fun p hp => hc.members p (h.archives.mem_iff.1 hp)

theorem Shuffled.relocs (h : Shuffled l l') (hc : SoundRelocs env l) : SoundRelocs env l' := by
  refine ⟨fun p d e k pos j rel hi => hc.type p d e k pos j rel (h.at hi), fun p d e k pos j rel sh hi => hc.home p d e k pos j rel sh (h.at hi),
    fun p d e k pos j rel s n hi hr ht hs hn => ?_, fun p d e hi => hc.apart p d e (h.at hi),
    fun p d e k pos j rel sh n hi hr hs hn p' d' e' sh' hi' => hc.loaded p d e k pos j rel sh n (h.at hi) hr hs hn p' d' e' sh' (h.at hi')⟩
  obtain ⟨h1, h2⟩ := hc.tls p d e k pos j rel s n (h.at hi) hr ht hs hn
  exact ⟨h1, fun p d e s hi => h2 p d e s (h.at hi)⟩

theorem Shuffled.flags (h : Shuffled l l') {F : List Nat} (hF : FewFlags env l F) : FewFlags env l' F :=
  ⟨fun p d e sh n hi => hF.flags p d e sh n (h.at hi), hF.few⟩

theorem Shuffled.members (h : Shuffled l l') : (membersOf env l').Perm (membersOf env l) := h.archives.flatMap_right _

theorem Shuffled.small (h : Shuffled l l') {V K : Nat} (hS : SmallWhole env l V K) : SmallWhole env l' V K := by
  have sums : ∀ f : ElfFile → Nat, ((inputsOf env l').map fun x => f x.elf).sum = ((inputsOf env l).map fun x => f x.elf).sum := by
    intro f
    have h1 := (h.elfs (env := env)).map f
    rw [List.map_map, List.map_map] at h1
    have h2 := (h.members (env := env)).map fun x => f x.elf
    unfold inputsOf
    rw [List.map_append, List.map_append, List.sum_append, List.sum_append]
    exact congr (congrArg _ h1.sum_nat) h2.sum_nat
  have mem : ∀ x ∈ inputsOf env l', ∃ y ∈ inputsOf env l, y.elf = x.elf := by
    intro x hx
    rcases List.mem_append.1 hx with hx | hx
    · obtain ⟨y, hy, e⟩ := h.loaded hx
      exact ⟨y, List.mem_append_left _ hy, e⟩
    · exact ⟨x, List.mem_append_right _ (h.members.mem_iff.1 hx), rfl⟩
  refine ⟨?_, ?_, ⟨hS.definitions.1, fun n => ?_⟩, ?_⟩
  · intro x hx
    obtain ⟨y, hy, e⟩ := mem x hx
    rw [← e]; exact hS.values y hy
  · intro x hx
    obtain ⟨y, hy, e⟩ := mem x hx
    rw [← e]; exact hS.addends y hy
  · rw [sums fun e => e.definitions n]; exact hS.definitions.2 n
  · rw [sums ElfFile.cost, h.options]; exact hS.small

theorem Shuffled.readable (h : Shuffled l l') (hR : ReadableFiles env l) : ReadableFiles env l' := by
  refine ⟨fun p hp => hR.objects p (h.objects.mem_iff.1 hp), by rw [h.options]; exact hR.libraries, fun p hp => hR.archives p (h.archives.mem_iff.1 hp),
    fun p d e sh hi => hR.sections p d e sh (h.at hi), fun p d e s hi => hR.symbols p d e s (h.at hi),
    fun p d e k pos j rel hi => hR.relocs p d e k pos j rel (h.at hi)⟩

theorem Shuffled.once (h : Shuffled l l') (hD : DefinedOnce env l) : DefinedOnce env l' :=
  ⟨h.objects.nodup_iff.2 hD.files, fun n p d j s p' d' j' s' h1 a b h2 => hD.names n p d j s p' d' j' s' (h.inputSym h1) a b (h.inputSym h2)⟩

theorem Shuffled.indexes (h : Shuffled l l') (hx : GlobalIndexes env l) : GlobalIndexes env l' :=
  ⟨fun p hp => hx.global p (h.archives.mem_iff.1 hp), fun p hp => hx.distinct p (h.archives.mem_iff.1 hp)⟩

theorem Shuffled.arrays (h : Shuffled l l') {n : Name} (hd : ArrayBound env l n) : ArrayBound env l' n := by
  obtain ⟨x, hx, i, sh, m, S, E, hd⟩ := hd
  obtain ⟨y, hy, e⟩ := h.symm.loaded hx
  exact ⟨y, hy, i, sh, m, S, E, by rw [e]; exact hd⟩

theorem Shuffled.globally (h : Shuffled l l') {n : Name} (hd : DefinedGlobally env l n) : DefinedGlobally env l' n := by
  obtain ⟨s, hm, hd⟩ := hd
  exact ⟨s, h.symm.mentioned hm, hd⟩

theorem Shuffled.libs (h : Shuffled l l') {n : Name} (hn : NotInLibs env l' n) : NotInLibs env l n := by
  unfold NotInLibs at hn ⊢
  rwa [← h.options]

theorem Shuffled.reached (h : Shuffled l l') {e : ElfFile} (hr : Reached env l' e) : Reached env l e := by
  induction hr with
  | object hp hd he ho => exact .object (h.objects.mem_iff.1 hp) hd he ho
  | member _ hu hg hl hp hd ha hn hm he ho ih =>
    exact .member ih hu (fun hd => hg (h.globally hd)) (h.libs hl) (h.archives.mem_iff.1 hp) hd ha hn hm he ho

theorem Shuffled.asked (h : Shuffled l l') {n : Name} (ha : Asked env l' n) : Asked env l n := by
  obtain ⟨⟨e, he, hl⟩, hg, hn⟩ := ha
  exact ⟨⟨e, h.reached he, hl⟩, fun hd => hg (h.globally hd), h.libs hn⟩

theorem Shuffled.world (h : Shuffled l l') : reachedEnv env l' = reachedEnv env l := by
  have : Asked env l' = Asked env l := funext fun n => propext ⟨h.asked, h.symm.asked⟩
  unfold reachedEnv
  rw [this]

theorem Shuffled.namesReached (h : Shuffled l l') (hn : NamesReached env l) : NamesReached env l' := by
  intro ns hnd hall
  refine hn ns hnd fun n hm => (hall n hm).imp_right ?_
  rintro ⟨e, s, he, hs⟩
  exact ⟨e, s, h.reached he, hs⟩

end

namespace Linker
variable {env : Env} {l l' : Linker} {sched sched' : LinkSched} {fuel : Nat} {F : List Nat} {V K : Nat} {file : Bytes}

/-- an object of the command line -/
theorem object_elf {p : Path} {d : Bytes} {e : ElfFile} (hp : p ∈ l.objects) (hd : env.read p = some d) (he : env.parseElf d = some e) (ho : e.isObjectFile = true) :
    ∃ x ∈ objectsOf env l, x.elf = e := by
  refine List.mem_map.1 ?_
  rw [objectsOf_elf]
  exact List.mem_filterMap.2 ⟨p, hp, by simp [hd, he, ho]⟩

/-- **What the files of a successful link need is there**: every file that the link can reach is linked, and what it leaves undefined is provided by the linker,
an object, a library or the index of an archive. -/
theorem reached_provided (hv : sched.Valid) (hn : NamesReached env l) (hc : CleanFiles (reachedEnv env l) l) (hf : SoundFiles (reachedEnv env l) l)
    (hr : SoundRelocs (reachedEnv env l) l) (hF : FewFlags (reachedEnv env l) l F) (S : SmallWhole (reachedEnv env l) l V K)
    (hb : ∀ n, PlainBinds (reachedEnv env l) l n) (hD : DefinedOnce (reachedEnv env l) l)
    (hx : GlobalIndexes (reachedEnv env l) l) (hg : GlobalDefinitions (reachedEnv env l) l) (hw : WholeIndexes env l)
    (hL : LinkerNames (reachedEnv env l) l) (h : link env l sched fuel = some (.ok file)) {e : ElfFile} {n : Name} (he : Reached env l e) (hlv : e.leaves n) :
    n = b!"_GLOBAL_OFFSET_TABLE_" ∨ ArrayBound env l n ∨ DefinedGlobally env l n ∨ InLibrary env l n ∨ InIndex (reachedEnv env l) l n := by
  rw [link_reached hv hn] at h
  obtain ⟨loaded, log, w, h4, _, hall⟩ := needed_linked hv hc (whole_tables hc hf hr (reachedEnv_names hn) hF hv hx hb S) h
  -- a name that a linked file needs and no library has is defined by a linked file
  have hdef : ∀ n, ∀ y ∈ loaded, y.elf.leaves n → n ∉ linkerSymbols → NotInLibs env l n → ∃ z ∈ loaded, ∃ j s, SymbolOf z j s n ∧ s.st_shndx ≠ 0 ∧ s.st_info / 16 = 1 := by
    intro n y hy ⟨s, hsm, hsn, h3, h0, hbind⟩ hl hlib
    obtain ⟨j, hj⟩ := List.getElem?_of_mem hsm
    have hneed : AnyNeeds (reachedEnv env l) l n := ⟨_, _, j, s, ⟨_, h4.inputAt hy, hj, hsn, h3⟩, h0, hbind⟩
    rcases hall n s ⟨y, hy, hsm, hsn, h3⟩ h0 hbind (fun s' ⟨z, hz, hs', hn', _⟩ => hb n z.elf (h4.inputAt hz).isInput s' hs' hn') with
      rfl | ⟨x, _, i, sh, m, S', E, _, _, _, hm', hSE⟩ | ⟨p, s', hp, data, e, hd, he, hse, hne⟩ | ⟨s', ⟨z, hz, hs', hn', h3'⟩, h0'⟩
    · exact absurd hl (by decide)
    · exfalso
      simp only [arrayBounds, List.mem_cons, Prod.mk.injEq, List.not_mem_nil, or_false] at hm'
      rcases hm' with ⟨rfl, rfl, rfl⟩ | ⟨rfl, rfl, rfl⟩ <;> rcases hSE with rfl | rfl <;> exact hl (by decide)
    · exact absurd hne (hlib p hp data e hd he s' hse)
    · obtain ⟨j', hj'⟩ := List.getElem?_of_mem hs'
      exact ⟨z, hz, j', s', ⟨hj', hn', h3'⟩, h0', hg n hneed _ _ j' s' ⟨_, h4.inputAt hz, hj', hn', h3'⟩ h0'⟩
  -- what can be reached is linked
  have hall' : ∀ e, Reached env l e → ∃ y ∈ loaded, y.elf = e := by
    intro e he
    induction he with
    | object hp hd he ho =>
      obtain ⟨x, hx, e⟩ := object_elf (env := reachedEnv env l) hp hd he ho
      obtain ⟨ms, e', _⟩ := h4.objects
      exact ⟨x, by rw [e']; exact List.mem_append_left _ hx, e⟩
    | @member e e' n p data m d ar h0 hu hg0 hl hp hd ha hn' hm' he ho ih =>
      obtain ⟨y, hy, rfl⟩ := ih
      have hA : Asked env l n := ⟨⟨_, h0, hu⟩, hg0, hl⟩
      have ha' : (reachedEnv env l).parseAr data = some (ar.only (Asked env l)) := by
        show (env.parseAr data).map _ = _
        rw [ha]; rfl
      have hn2 : (ar.only (Asked env l)).memberOfSymbol n = some m := by
        haveI := Classical.propDecidable (Asked env l n)
        rw [memberOfSymbol_only, if_pos hA]; exact hn'
      have hnl : n ∉ linkerSymbols := fun hl => hL.indexes n hl ⟨p, hp, data, _, m, hd, ha', hn2⟩
      obtain ⟨z, hz, j, s, hsz, hz0, hzb⟩ := hdef n y hy hu hnl hl
      obtain ⟨e2, he2, _, s2, hs2, hn3, h33, h03, hb3⟩ := hx.global p hp data _ hd ha' n m d hn2 hm'
      have he2 : env.parseElf d = some e2 := he2
      rw [he] at he2
      cases he2
      obtain ⟨j2, hj2⟩ := List.getElem?_of_mem hs2
      have hin : InputAt (reachedEnv env l) l p d e' := .member hp hd ha' hn2 hm' he ho
      obtain ⟨_, hdd, _⟩ := hD.names n p d j2 s2 z.path z.data j s ⟨_, hin, hj2, hn3, h33⟩ hb3 h03 ⟨_, h4.inputAt hz, hsz⟩ hz0
      refine ⟨z, hz, ?_⟩
      have : env.parseElf z.data = some z.elf := by
        cases h4.inputAt hz with
        | object _ _ h => exact h
        | member _ _ _ _ _ h => exact h
      rw [hdd, he] at this
      exact (Option.some.inj this).symm
  obtain ⟨y, hy, rfl⟩ := hall' e he
  by_cases hl : n ∈ linkerSymbols
  · obtain ⟨s, hsm, hsn, h3, h0, hbind⟩ := hlv
    obtain ⟨j, hj⟩ := List.getElem?_of_mem hsm
    rcases hL.bounds n hl ⟨_, _, j, s, ⟨_, h4.inputAt hy, hj, hsn, h3⟩, h0, hbind⟩ with h | h
    · exact .inl h
    · exact .inr (.inl h)
  · by_cases hlibs : NotInLibs env l n
    case neg =>
      simp only [NotInLibs, Classical.not_forall, Classical.not_not] at hlibs
      obtain ⟨p, hpl, data, e, hd, he, s, hs, hn⟩ := hlibs
      exact .inr (.inr (.inr (.inl ⟨p, s, hpl, data, e, hd, he, hs, hn⟩)))
    obtain ⟨z, hz, j, s, hsz, hz0, hzb⟩ := hdef n y hy hlv hl hlibs
    by_cases hdg : DefinedGlobally env l n
    · exact .inr (.inr (.inl hdg))
    have hin := h4.inputAt hz
    generalize z.path = zp, z.data = zd at hin
    cases hin with
    | object hp' hd' he' ho' =>
      obtain ⟨x, hx, e⟩ := object_elf (env := reachedEnv env l) hp' hd' he' ho'
      exact absurd ⟨s, ⟨x, hx, by rw [e]; exact List.mem_of_getElem? hsz.1, by rw [e]; exact hsz.2.1, hsz.2.2⟩, hz0, hzb⟩ hdg
    | member hp' hd' ha' hn' hm' he' ho' =>
      rename_i data ar n0 m
      have ha0 : (env.parseAr data).map (·.only (Asked env l)) = some ar := ha'
      rw [Option.map_eq_some_iff] at ha0
      obtain ⟨ar0, ha0, rfl⟩ := ha0
      have hn0 : ar0.memberOfSymbol n0 = some m := by
        haveI := Classical.propDecidable (Asked env l n0)
        rw [memberOfSymbol_only] at hn'
        split at hn'
        · exact hn'
        · cases hn'
      have hsome := hw _ hp' _ _ hd' ha0 n0 m _ _ hn0 hm' he' s (List.mem_of_getElem? hsz.1) n hsz.2.1 hsz.2.2 hz0 hzb
      obtain ⟨m', hm2⟩ := Option.isSome_iff_exists.1 hsome
      have hA : Asked env l n := ⟨⟨_, he, hlv⟩, hdg, hlibs⟩
      refine .inr (.inr (.inr (.inr ⟨_, hp', data, ar0.only (Asked env l), m', ?_⟩)))
      refine ⟨hd', ha', ?_⟩
      haveI := Classical.propDecidable (Asked env l n)
      rw [memberOfSymbol_only, if_pos hA]
      exact hm2

/-- **C157.** If objects and archives link in one order, they link in every order. -/
theorem C157_shuffled (hv : sched.Valid) (hv' : sched'.Valid) (hn : NamesReached env l) (hc : CleanFiles (reachedEnv env l) l) (hf : SoundFiles (reachedEnv env l) l)
    (hr : SoundRelocs (reachedEnv env l) l) (hF : FewFlags (reachedEnv env l) l F) (S : SmallWhole (reachedEnv env l) l V K)
    (hb : ∀ n, PlainBinds (reachedEnv env l) l n) (hR : ReadableFiles (reachedEnv env l) l) (hD : DefinedOnce (reachedEnv env l) l)
    (hx : GlobalIndexes (reachedEnv env l) l) (hnd : l.archives.Nodup) (hg : GlobalDefinitions (reachedEnv env l) l) (hw : WholeIndexes env l)
    (hL : LinkerNames (reachedEnv env l) l) (hp : Shuffled l l') (h : link env l sched fuel = some (.ok file)) :
    ∃ rounds file', ∀ fuel', rounds ≤ fuel' → link env l' sched' fuel' = some (.ok file') := by
  have hE := hp.world (env := env)
  refine C140_reached_partial (F := F) (V := V) (K := K) hv' (hp.namesReached hn) (by rw [hE]; exact hp.clean hc) (by rw [hE]; exact hp.sound hf)
    (by rw [hE]; exact hp.relocs hr) (by rw [hE]; exact hp.flags hF) (by rw [hE]; exact hp.small S)
    (by rw [hE]; exact fun n e he => hb n e (hp.input he)) (by rw [hE]; exact hp.readable hR) (by rw [hE]; exact hp.once hD) (by rw [hE]; exact hp.indexes hx)
    (hp.archives.nodup_iff.2 hnd) ?_
  intro e n he hlv
  rcases reached_provided hv hn hc hf hr hF S hb hD hx hg hw hL h (hp.reached he) hlv with h | h | h | ⟨p, s, hpl, h⟩ | ⟨p, hp', h⟩
  · exact .inl h
  · exact .inr (.inr (.inl (.inr (hp.arrays h))))
  · exact .inr (.inl (hp.globally h))
  · exact .inr (.inr (.inr (.inl ⟨p, s, by rw [hp.options]; exact hpl, h⟩)))
  · exact .inr (.inr (.inr (.inr ⟨p, hp.archives.mem_iff.2 hp', by rw [hE]; exact h⟩)))

/-! ### Two archives, each of which is needed for the other -/

def gArPath : Path := ⟨b!"libg.a", some b!"libg.a"⟩
def hArPath : Path := ⟨b!"libh.a", some b!"libh.a"⟩
def gAr : ArFile := { index := [(b!"g", b!"g.o")], get := AMap.get? [(b!"g.o", List.replicate 16 0xcc)] }
def hAr : ArFile := { index := [(b!"h", b!"h.o")], get := AMap.get? [(b!"h.o", List.replicate 8 0xc3)] }

def hLibPath : Path := ⟨b!"lib/libh.so", some b!"libh.so"⟩
/-- a shared library with `h`, which is not on the command line -/
def hLibElf : ElfFile := { libElf with dynName := AMap.get? [(0, []), (1, b!"h")] }

def duoFiles : List (Path × Bytes) := [(mainPath, List.replicate 16 0x90), (gArPath, b!"archive g"), (hArPath, b!"archive h"), (hLibPath, b!"library")]
def duoElfs : List (Bytes × ElfFile) := chainElfs ++ [(b!"library", hLibElf)]
def duoEnv : Env := tableEnv duoFiles duoElfs [(b!"archive g", gAr), (b!"archive h", hAr)]
def duoLinker : Linker := { options := Options.default, objects := [mainPath], archives := [gArPath, hArPath] }

theorem duo_archive {p : Path} {data : Bytes} {ar : ArFile} {n : Name} {m d : Bytes} (hp : p ∈ duoLinker.archives) (hd : duoEnv.read p = some data)
    (ha : duoEnv.parseAr data = some ar) (hn : ar.memberOfSymbol n = some m) (hm : ar.get m = some d) :
    (p = gArPath ∧ ar = gAr ∧ n = b!"g" ∧ m = b!"g.o" ∧ d = List.replicate 16 0xcc) ∨ (p = hArPath ∧ ar = hAr ∧ n = b!"h" ∧ m = b!"h.o" ∧ d = List.replicate 8 0xc3) := by
  have hp : p = gArPath ∨ p = hArPath := by simpa [duoLinker] using hp
  rcases hp with rfl | rfl
  · have hd' : duoEnv.read gArPath = some b!"archive g" := by decide +kernel
    rw [hd'] at hd; cases hd
    have ha' : duoEnv.parseAr b!"archive g" = some gAr := rfl
    rw [ha'] at ha; cases ha
    have := AMap.mem_of_get? hn
    simp only [gAr, List.mem_cons, List.not_mem_nil, or_false, Prod.mk.injEq] at this
    obtain ⟨rfl, rfl⟩ := this
    have hm' : gAr.get b!"g.o" = some (List.replicate 16 0xcc) := by decide +kernel
    rw [hm'] at hm; cases hm
    exact .inl ⟨rfl, rfl, rfl, rfl, rfl⟩
  · have hd' : duoEnv.read hArPath = some b!"archive h" := by decide +kernel
    rw [hd'] at hd; cases hd
    have ha' : duoEnv.parseAr b!"archive h" = some hAr := rfl
    rw [ha'] at ha; cases ha
    have := AMap.mem_of_get? hn
    simp only [hAr, List.mem_cons, List.not_mem_nil, or_false, Prod.mk.injEq] at this
    obtain ⟨rfl, rfl⟩ := this
    have hm' : hAr.get b!"h.o" = some (List.replicate 8 0xc3) := by decide +kernel
    rw [hm'] at hm; cases hm
    exact .inr ⟨rfl, rfl, rfl, rfl, rfl⟩

theorem duo_input {p : Path} {d : Bytes} {e : ElfFile} (h : InputAt duoEnv duoLinker p d e) :
    (p = mainPath ∧ d = List.replicate 16 0x90 ∧ e = callerElf) ∨ (p = gArPath ∧ d = List.replicate 16 0xcc ∧ e = chainElf) ∨
      (p = hArPath ∧ d = List.replicate 8 0xc3 ∧ e = lastElf) := by
  cases h with
  | object hp hd he =>
    cases List.mem_singleton.1 hp
    have hd' : duoEnv.read mainPath = some (List.replicate 16 0x90) := by decide +kernel
    rw [hd'] at hd; cases hd
    have he' : duoEnv.parseElf (List.replicate 16 0x90) = some callerElf := rfl
    rw [he'] at he; cases he
    exact .inl ⟨rfl, rfl, rfl⟩
  | member hp hd ha hn hm he =>
    rcases duo_archive hp hd ha hn hm with ⟨rfl, _, _, _, rfl⟩ | ⟨rfl, _, _, _, rfl⟩
    · have he' : duoEnv.parseElf (List.replicate 16 0xcc) = some chainElf := rfl
      rw [he'] at he; cases he
      exact .inr (.inl ⟨rfl, rfl, rfl⟩)
    · have he' : duoEnv.parseElf (List.replicate 8 0xc3) = some lastElf := rfl
      rw [he'] at he; cases he
      exact .inr (.inr ⟨rfl, rfl, rfl⟩)

/-- the symbols of the three files -/
def duoSyms : List ((Path × Bytes × Nat) × Sym × Name) :=
  [(mainPath, List.replicate 16 0x90, callerElf), (gArPath, List.replicate 16 0xcc, chainElf), (hArPath, List.replicate 8 0xc3, lastElf)].flatMap fun x =>
    x.2.2.syms.zipIdx.filterMap fun y => (x.2.2.symName y.1.st_name).map fun n => ((x.1, x.2.1, y.2), y.1, n)

theorem duo_sym {p : Path} {d : Bytes} {j : Nat} {s : Sym} {n : Name} (h : InputSym duoEnv duoLinker p d j s n) : ((p, d, j), s, n) ∈ duoSyms := by
  obtain ⟨e, hi, hj, hn, _⟩ := h
  refine List.mem_flatMap.2 ⟨(p, d, e), ?_, List.mem_filterMap.2 ⟨(s, j), List.mem_zipIdx_iff_getElem?.2 hj, by simp only [hn]; rfl⟩⟩
  rcases duo_input hi with ⟨rfl, rfl, rfl⟩ | ⟨rfl, rfl, rfl⟩ | ⟨rfl, rfl, rfl⟩ <;> simp

theorem duo_needs {n : Name} (h : AnyNeeds duoEnv duoLinker n) : n = b!"g" ∨ n = b!"h" := by
  obtain ⟨p, d, j, s, h, h0, hb⟩ := h
  exact (by decide +kernel : ∀ x ∈ duoSyms, x.2.1.st_shndx = 0 → (x.2.1.st_info / 16 = 1 ∨ x.2.1.st_info / 16 = 2) → x.2.2 = b!"g" ∨ x.2.2 = b!"h") _ (duo_sym h) h0 hb

theorem duo_sound : SoundFiles duoEnv duoLinker := by
  refine SoundFiles.of_table (by decide +kernel) (by decide) (by intro p hp; cases hp) ?_
  intro p hp data ar n m hd ha hn
  have hp : p = gArPath ∨ p = hArPath := by simpa [duoLinker] using hp
  rcases hp with rfl | rfl
  · have hd' : duoEnv.read gArPath = some b!"archive g" := by decide +kernel
    have hd : duoEnv.read gArPath = some data := hd
    rw [hd'] at hd; cases hd
    have ha' : AMap.get? [(b!"archive g", gAr), (b!"archive h", hAr)] b!"archive g" = some gAr := rfl
    rw [ha'] at ha; cases ha
    have := AMap.mem_of_get? hn
    simp only [gAr, List.mem_cons, List.not_mem_nil, or_false, Prod.mk.injEq] at this
    obtain ⟨rfl, rfl⟩ := this
    refine ⟨List.replicate 16 0xcc, by decide +kernel, fun e he => ?_⟩
    have he' : AMap.get? duoElfs (List.replicate 16 0xcc) = some chainElf := rfl
    rw [he'] at he; cases he; rfl
  · have hd' : duoEnv.read hArPath = some b!"archive h" := by decide +kernel
    have hd : duoEnv.read hArPath = some data := hd
    rw [hd'] at hd; cases hd
    have ha' : AMap.get? [(b!"archive g", gAr), (b!"archive h", hAr)] b!"archive h" = some hAr := rfl
    rw [ha'] at ha; cases ha
    have := AMap.mem_of_get? hn
    simp only [hAr, List.mem_cons, List.not_mem_nil, or_false, Prod.mk.injEq] at this
    obtain ⟨rfl, rfl⟩ := this
    refine ⟨List.replicate 8 0xc3, by decide +kernel, fun e he => ?_⟩
    have he' : AMap.get? duoElfs (List.replicate 8 0xc3) = some lastElf := rfl
    rw [he'] at he; cases he; rfl

theorem duo_readable : ReadableFiles duoEnv duoLinker := by
  have hall : ∀ p d e, InputAt duoEnv duoLinker p d e → readableElf e = true := by
    intro p d e hi
    rcases duo_input hi with ⟨_, _, rfl⟩ | ⟨_, _, rfl⟩ | ⟨_, _, rfl⟩ <;> decide +kernel
  refine ⟨?_, (by intro p hp; cases hp), ?_, ?_, ?_, ?_⟩
  · intro p hp
    cases List.mem_singleton.1 hp
    exact ⟨List.replicate 16 0x90, callerElf, by decide +kernel, rfl⟩
  · intro p hp
    have key : ∀ data ar, duoEnv.read p = some data → duoEnv.parseAr data = some ar →
        ∀ n m b, ar.memberOfSymbol n = some m → ar.get m = some b → (duoEnv.parseElf b).isSome := by
      intro data ar hd ha n m b hn hm
      rcases duo_archive hp hd ha hn hm with ⟨_, _, _, _, rfl⟩ | ⟨_, _, _, _, rfl⟩ <;> rfl
    have hp' : p = gArPath ∨ p = hArPath := by simpa [duoLinker] using hp
    rcases hp' with rfl | rfl
    · have hr : duoEnv.read gArPath = some b!"archive g" := by decide +kernel
      exact ⟨b!"archive g", gAr, hr, rfl, key _ _ hr rfl⟩
    · have hr : duoEnv.read hArPath = some b!"archive h" := by decide +kernel
      exact ⟨b!"archive h", hAr, hr, rfl, key _ _ hr rfl⟩
  · intro p d e sh hi hsh _
    have := hall p d e hi
    simp only [readableElf, Bool.and_eq_true, List.all_eq_true] at this
    exact this.1.1 sh hsh
  · intro p d e s hi hs
    have := hall p d e hi
    simp only [readableElf, Bool.and_eq_true, List.all_eq_true] at this
    exact this.1.2 s hs
  · intro p d e k pos j rel hi hr
    have := hall p d e hi
    simp only [readableElf, Bool.and_eq_true, List.all_eq_true] at this
    simpa using this.2 _ hr

theorem duo_once : DefinedOnce duoEnv duoLinker := by
  refine ⟨by decide, ?_⟩
  intro n p d j s p' d' j' s' h1 a1 a2 h2 a4
  have := (by decide +kernel : ∀ x ∈ duoSyms, ∀ y ∈ duoSyms, x.2.2 = y.2.2 → x.2.1.st_info / 16 = 1 → x.2.1.st_shndx ≠ 0 → y.2.1.st_shndx ≠ 0 → y.1 = x.1)
    _ (duo_sym h1) _ (duo_sym h2) rfl a1 a2 a4
  simpa using this

theorem duo_indexes : GlobalIndexes duoEnv duoLinker := by
  refine ⟨?_, ?_⟩
  · intro p hp data ar hd ha n m d hn hm
    rcases duo_archive hp hd ha hn hm with ⟨_, _, rfl, _, rfl⟩ | ⟨_, _, rfl, _, rfl⟩
    · exact ⟨chainElf, rfl, rfl, { demoSym STT_FUNC 1 4 12 with st_name := 1 }, by decide, by decide, by decide, by decide, by decide⟩
    · exact ⟨lastElf, rfl, rfl, { demoSym STT_FUNC 1 0 8 with st_name := 1 }, by decide, by decide, by decide, by decide, by decide⟩
  · intro p hp data ar hd ha n m n' m' d hn hn' hm hm'
    rcases duo_archive hp hd ha hn hm with ⟨rfl, rfl, _, rfl, rfl⟩ | ⟨rfl, rfl, _, rfl, rfl⟩ <;>
      rcases duo_archive hp hd ha hn' hm' with ⟨h, _, _, h', _⟩ | ⟨h, _, _, h', _⟩
    · exact h'.symm
    · exact absurd h (by decide)
    · exact absurd h (by decide)
    · exact h'.symm

theorem duo_small : SmallInputs duoEnv duoLinker 100 1 := by
  refine ⟨by decide +kernel, by decide +kernel, ⟨by decide, fun n => ?_⟩, by decide +kernel⟩
  exact chain_small.definitions.2 n

theorem duo_asked {n : Name} (hn : n = b!"g" ∨ n = b!"h") : Asked duoEnv duoLinker n := by
  have undefined : ∀ n, n = b!"g" ∨ n = b!"h" → ¬ DefinedGlobally duoEnv duoLinker n ∧ NotInLibs duoEnv duoLinker n := by
    intro n hn
    refine ⟨?_, fun p hp => nomatch hp⟩
    rintro ⟨s, ⟨x, hx, h1, h2, _⟩, h0, hb⟩
    have hx : x ∈ [(⟨.object 0, mainPath, List.replicate 16 0x90, callerElf⟩ : Loaded)] := hx
    cases List.mem_singleton.1 hx
    have := (by decide +kernel : ∀ s ∈ callerElf.syms, s.st_shndx ≠ 0 → s.st_info / 16 = 1 → callerElf.symName s.st_name = some b!"_start") s h1 h0 hb
    rw [h2] at this; cases this
    rcases hn with h | h <;> exact absurd h (by decide)
  have main : Reached duoEnv duoLinker callerElf := .object (p := mainPath) (d := List.replicate 16 0x90) (by decide) (by decide +kernel) rfl rfl
  have calls : callerElf.leaves b!"g" := ⟨{ demoSym 0 0 0 0 with st_name := 10 }, by decide, by decide, by decide, by decide, by decide⟩
  have calls' : chainElf.leaves b!"h" := ⟨{ demoSym 0 0 0 0 with st_name := 10 }, by decide, by decide, by decide, by decide, by decide⟩
  rcases hn with rfl | rfl
  · exact ⟨⟨_, main, calls⟩, undefined _ (.inl rfl)⟩
  · have u := undefined b!"g" (.inl rfl)
    exact ⟨⟨_, .member main calls u.1 u.2 (p := gArPath) (data := b!"archive g") (ar := gAr) (m := b!"g.o") (d := List.replicate 16 0xcc) (by decide) (by decide +kernel) rfl
      (by decide +kernel) (by decide +kernel) rfl rfl, calls'⟩, undefined _ (.inr rfl)⟩

/-- everything in the indexes is reached -/
theorem duo_env : reachedEnv duoEnv duoLinker = duoEnv := by
  have hg : gAr.only (Asked duoEnv duoLinker) = gAr := by
    unfold ArFile.only
    have : gAr.index.filter (fun e => @decide (Asked duoEnv duoLinker e.1) (Classical.propDecidable _)) = gAr.index := by
      rw [List.filter_eq_self]
      intro e he
      have he : e = (b!"g", b!"g.o") := by simpa [gAr] using he
      subst he
      simpa using duo_asked (.inl rfl)
    rw [this]
  have hh : hAr.only (Asked duoEnv duoLinker) = hAr := by
    unfold ArFile.only
    have : hAr.index.filter (fun e => @decide (Asked duoEnv duoLinker e.1) (Classical.propDecidable _)) = hAr.index := by
      rw [List.filter_eq_self]
      intro e he
      have he : e = (b!"h", b!"h.o") := by simpa [hAr] using he
      subst he
      simpa using duo_asked (.inr rfl)
    rw [this]
  have : (reachedEnv duoEnv duoLinker).parseAr = duoEnv.parseAr := by
    funext d
    show (duoEnv.parseAr d).map _ = _
    show (AMap.get? [(b!"archive g", gAr), (b!"archive h", hAr)] d).map _ = AMap.get? [(b!"archive g", gAr), (b!"archive h", hAr)] d
    simp only [AMap.get?]
    split
    · exact congrArg some hg
    · split
      · exact congrArg some hh
      · rfl
  unfold reachedEnv at this ⊢
  simp only [] at this
  rw [this]

theorem duo_names : NamesReached duoEnv duoLinker := by
  have := NamesSmall.of_table (files := duoFiles) (elfs := duoElfs) (ars := [(b!"archive g", gAr), (b!"archive h", hAr)]) (l := duoLinker) (by decide +kernel)
  intro ns hd hns
  refine this ns hd fun n hn => (hns n hn).imp id ?_
  rintro ⟨e, s, he, hs, hn⟩
  cases he with
  | object hp hd he ho => exact ⟨_, _, e, s, .object hp hd he ho, hs, hn⟩
  | member _ _ _ _ hp hd ha hn' hm he ho => exact ⟨_, _, e, s, .member hp hd ha hn' hm he ho, hs, hn⟩

theorem duo_binds (n : Name) : PlainBinds duoEnv duoLinker n := by
  intro e he s hs _
  exact (by decide +kernel : ∀ e ∈ duoElfs.map (·.2), ∀ s ∈ e.syms, s.st_info / 16 ≤ 2) e he.of_table s hs

theorem duo_global : GlobalDefinitions duoEnv duoLinker := by
  intro n _ p d j s hs h0
  exact (by decide +kernel : ∀ x ∈ duoSyms, x.2.1.st_shndx ≠ 0 → x.2.1.st_info / 16 = 1) _ (duo_sym hs) h0

theorem duo_whole : WholeIndexes duoEnv duoLinker := by
  intro p hp data ar hd ha n m d e hn hm he s hs n' hn' h3 h0 hb
  rcases duo_archive hp hd ha hn hm with ⟨_, rfl, _, _, rfl⟩ | ⟨_, rfl, _, _, rfl⟩
  · have he' : duoEnv.parseElf (List.replicate 16 0xcc) = some chainElf := rfl
    rw [he'] at he; cases he
    have := (by decide +kernel : ∀ s ∈ chainElf.syms, s.st_shndx ≠ 0 → chainElf.symName s.st_name = some b!"g") s hs h0
    rw [hn'] at this; cases this; decide
  · have he' : duoEnv.parseElf (List.replicate 8 0xc3) = some lastElf := rfl
    rw [he'] at he; cases he
    have := (by decide +kernel : ∀ s ∈ lastElf.syms, s.st_shndx ≠ 0 → lastElf.symName s.st_name = some b!"h") s hs h0
    rw [hn'] at this; cases this; decide

theorem duo_linkerNames : LinkerNames duoEnv duoLinker := by
  refine ⟨?_, ?_⟩
  · rintro n hn ⟨p, hp, data, ar, m, hd, ha, hm⟩
    have hp : p = gArPath ∨ p = hArPath := by simpa [duoLinker] using hp
    rcases hp with rfl | rfl
    · have hd' : duoEnv.read gArPath = some b!"archive g" := by decide +kernel
      rw [hd'] at hd; cases hd
      have ha' : duoEnv.parseAr b!"archive g" = some gAr := rfl
      rw [ha'] at ha; cases ha
      have := AMap.mem_of_get? hm
      simp only [gAr, List.mem_cons, List.not_mem_nil, or_false, Prod.mk.injEq] at this
      rw [this.1] at hn; exact absurd hn (by decide)
    · have hd' : duoEnv.read hArPath = some b!"archive h" := by decide +kernel
      rw [hd'] at hd; cases hd
      have ha' : duoEnv.parseAr b!"archive h" = some hAr := rfl
      rw [ha'] at ha; cases ha
      have := AMap.mem_of_get? hm
      simp only [hAr, List.mem_cons, List.not_mem_nil, or_false, Prod.mk.injEq] at this
      rw [this.1] at hn; exact absurd hn (by decide)
  · intro n hn hneed
    rcases duo_needs hneed with rfl | rfl <;> exact absurd hn (by decide)

/-- the archives in the other order, in which `h` is not needed when its archive is searched first -/
example (sched : LinkSched) (hv : sched.Valid) : ∃ rounds file, ∀ fuel, rounds ≤ fuel →
    link duoEnv { duoLinker with archives := [hArPath, gArPath] } sched fuel = some (.ok file) := by
  have hc : CleanFiles duoEnv duoLinker := CleanFiles.of_table (by decide +kernel)
  have h : links duoEnv duoLinker LinkSched.id 5 (fun _ _ _ _ => true) = true := by decide +kernel
  obtain ⟨log, loaded, w, w', f, s, h1, _⟩ := LinkRun.of_links LinkSched.id_valid hc h
  refine C157_shuffled (F := [0, 6]) (V := 100) (K := 1) LinkSched.id_valid hv duo_names (by rw [duo_env]; exact hc) (by rw [duo_env]; exact duo_sound)
    (by rw [duo_env]; exact SoundRelocs.of_table (by decide +kernel) (by decide +kernel)) (by rw [duo_env]; exact FewFlags.of_table (by decide +kernel) (by decide))
    (by rw [duo_env]; exact SmallWhole.of_inputs rfl duo_small) (by rw [duo_env]; exact duo_binds) (by rw [duo_env]; exact duo_readable) (by rw [duo_env]; exact duo_once) (by rw [duo_env]; exact duo_indexes) (by decide)
    (by rw [duo_env]; exact duo_global) duo_whole (by rw [duo_env]; exact duo_linkerNames) ⟨.refl _, .swap _ _ _, rfl⟩ h1

end Linker
end Dld
