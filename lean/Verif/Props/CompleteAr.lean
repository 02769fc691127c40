import Verif.Props.Complete
import Verif.Props.OneDef
import Verif.Lemmas.OnceMembers
/-! # Complete programs with archives link -/
namespace Dld
open Writer Spec StringTable

theorem GlobalIndexes.truthful {env : Env} {l : Linker} (h : GlobalIndexes env l) : TruthfulIndexes env l := by
  intro p hp data ar hd ha n m d e hn hm he _
  obtain ⟨e', he', _, s, h1, h2, h3, h4, _⟩ := h.global p hp data ar hd ha n m d hn hm
  rw [he'] at he; cases he
  exact ⟨s, h1, h2, h3, h4⟩

namespace Linker
variable {env : Env} {l : Linker} {sched : LinkSched} {fuel : Nat} {F : List Nat} {V K : Nat} {N : List Call → Name → Prop} {loaded : List Loaded} {log : List Call}
  {w : Writer}

/-- the one member of the list that a linked member is -/
def asListed (x : Loaded) : Loaded :=
  match x.source with
  | .member p m _ => { x with source := .member p m 0 }
  | _ => x

theorem asListed_elf (x : Loaded) : (asListed x).elf = x.elf := by unfold asListed; split <;> rfl

theorem asListed_mem {x : Loaded} (h : FromArchive env l N log x) : asListed x ∈ membersOf env l := by
  cases h with
  | @mk p data ar n m d e start q hp hd ha hn hm he ho =>
    unfold membersOf
    refine List.mem_flatMap.2 ⟨p, hp, ?_⟩
    rw [hd, Option.bind_some, ha, Option.map_some, Option.getD_some]
    refine List.mem_filterMap.2 ⟨m, ?_, ?_⟩
    · rw [List.mem_eraseDups]
      exact List.mem_map.2 ⟨_, AMap.mem_of_get? hn, rfl⟩
    · rw [hm, Option.bind_some, he, Option.bind_some, if_pos ho]
      rfl

/-- no member is linked twice -/
theorem Calls.members_once (h : Calls env l N loaded log) (hh : Hist l.options (opsOf log) w) (hs : NamesSmall env l) (hx : GlobalIndexes env l)
    (hb : ∀ n, PlainBinds env l n) : ∃ ms, loaded = objectsOf env l ++ ms ∧ (∀ x ∈ ms, FromArchive env l N log x) ∧ (ms.map asListed).Nodup := by
  obtain ⟨ms, e, hms⟩ := h.objects
  refine ⟨ms, e, hms, ?_⟩
  have strong : ∀ x ∈ ms, ∃ p m st n j, x.source = .member p m st ∧ Strong x j n ∧ (∀ y ∈ ms, ∀ st', y.source = .member p m st' → Strong y j n) := by
    intro x hxm
    cases hms x hxm with
    | @mk p data ar n m d e start q hp hd ha hn hm he ho =>
      obtain ⟨e', he', _, s, h1, h2, h3, h4, h5⟩ := hx.global p hp data ar hd ha n m d hn hm
      rw [he'] at he; cases he
      have hpe := he'
      obtain ⟨j, hj⟩ := List.getElem?_of_mem h1
      refine ⟨p, m, start, n, j, rfl, ⟨s, ⟨hj, h2, h3⟩, h5, h4⟩, ?_⟩
      intro y hy st' hsrc
      cases hms y hy with
      | @mk p' data' ar' n' m' d' e'' start' q' hp' hd' ha' hn' hm' he' ho' =>
        cases hsrc
        rw [hd] at hd'; cases hd'
        rw [ha] at ha'; cases ha'
        rw [hm] at hm'; cases hm'
        rw [hpe] at he'; cases he'
        exact ⟨s, ⟨hj, h2, h3⟩, h5, h4⟩
  have plain : ∀ n, ∀ z ∈ loaded, ∀ i t, SymbolOf z i t n → t.st_info / 16 ≤ 2 := fun n z hz i t ht =>
    hb n z.elf (h.inputAt hz).isInput t (List.mem_of_getElem? ht.1) ht.2.1
  have same : ∀ x ∈ ms, ∀ y ∈ ms, asListed x = asListed y → x = y := by
    intro x hxm y hym he
    obtain ⟨p, m, st, n, j, h1, h2, h3⟩ := strong x hxm
    obtain ⟨p', m', st', n', j', h1', _, _⟩ := strong y hym
    unfold asListed at he
    rw [h1, h1'] at he
    have : Source.member p m 0 = Source.member p' m' 0 := congrArg Loaded.source he
    cases this
    exact (h.one_strong hh hs (by rw [e]; exact List.mem_append_right _ hxm) (by rw [e]; exact List.mem_append_right _ hym) h2 (h3 y hym st' h1') (plain n)).1
  have nodup : ms.Nodup := by
    have hn := h.once.2
    rw [h.others, e, List.flatMap_append, List.nodup_append] at hn
    replace hn := hn.2.1
    clear e same
    induction ms with
    | nil => exact List.nodup_nil
    | cons x ms ih =>
      rw [List.flatMap_cons, List.nodup_append] at hn
      refine List.nodup_cons.2 ⟨fun hm => ?_, ih (fun y hy => hms y (by simp [hy])) (fun y hy => ?_) hn.2.1⟩
      · obtain ⟨p, m, st, n, j, _, ⟨s, hs, _⟩, _⟩ := strong x (by simp)
        have : (x.source, Item.symbol j) ∈ x.otherKeys := by
          unfold Loaded.otherKeys
          exact List.mem_append_left _ (List.mem_map.2 ⟨j, List.mem_range.2 (List.getElem?_eq_some_iff.1 hs.1).1, rfl⟩)
        exact hn.2.2 _ this _ (List.mem_flatMap.2 ⟨x, hm, this⟩) rfl
      · obtain ⟨p, m, st, n, j, a, b, c⟩ := strong y (by simp [hy])
        exact ⟨p, m, st, n, j, a, b, fun z hz => c z (by simp [hz])⟩
  clear e hms strong plain
  induction ms with
  | nil => exact List.nodup_nil
  | cons x ms ih =>
    rw [List.map_cons, List.nodup_cons]
    rw [List.nodup_cons] at nodup
    refine ⟨fun hm => ?_, ih (fun a ha b hb => same a (by simp [ha]) b (by simp [hb])) nodup.2⟩
    obtain ⟨y, hy, he⟩ := List.mem_map.1 hm
    have := same y (by simp [hy]) x (by simp) he
    subst this
    exact nodup.1 hy

theorem SmallInputs.fits (S : SmallInputs env l V K) (h : Calls env l N loaded log) (hh : Hist l.options (opsOf log) w) (hc : CleanFiles env l)
    (hn : NamesSmall env l) (hlib : l.options.sharedLibs = []) (hx : GlobalIndexes env l) (hb : ∀ n, PlainBinds env l n) :
    Spec.Fits l.options (opsOf log) V K := by
  obtain ⟨ms, e, hms, hnd⟩ := Calls.members_once h hh hn hx hb
  have hin : ∀ x ∈ loaded, ∃ y ∈ inputsOf env l, y.elf = x.elf := by
    intro x hxm
    rw [e] at hxm
    rcases List.mem_append.1 hxm with hm | hm
    · exact ⟨x, List.mem_append_left _ hm, rfl⟩
    · exact ⟨_, List.mem_append_right _ (asListed_mem (hms x hm)), asListed_elf x⟩
  have hsum : ∀ f : ElfFile → Nat, (loaded.map fun x => f x.elf).sum ≤ ((inputsOf env l).map fun x => f x.elf).sum := by
    intro f
    rw [e]
    unfold inputsOf
    rw [List.map_append, List.map_append, List.sum_append, List.sum_append]
    refine Nat.add_le_add_left ?_ _
    haveI : DecidableEq Loaded := fun a b => Classical.propDecidable (a = b)
    have := sum_subset (fun x : Loaded => f x.elf) (membersOf env l) (ms.map asListed) hnd fun x hm => by
      obtain ⟨y, hy, rfl⟩ := List.mem_map.1 hm
      exact asListed_mem (hms y hy)
    rw [List.map_map] at this
    have e2 : (fun x : Loaded => f x.elf) ∘ asListed = fun x => f x.elf := by funext x; simp only [Function.comp, asListed_elf]
    rw [e2] at this
    exact this
  refine ⟨?_, ?_, h.attaches_le hh hc hn ⟨S.definitions.1, fun n => Nat.le_trans (hsum fun e => e.definitions n) (S.definitions.2 n)⟩, ?_⟩
  · intro s sec n path r hop
    obtain ⟨x, hxm, hs, _⟩ := h.sym hop
    obtain ⟨y, hy, he⟩ := hin x hxm
    exact S.values y hy s (by rw [he]; exact hs)
  · intro rel y sr path hop
    obtain ⟨c, hc, e'⟩ := List.mem_map.1 hop
    obtain ⟨x, k, pos, j, rel', s, sh, n, R⟩ := h.relocCall hc e'
    obtain ⟨z, hz, he⟩ := hin x R.file
    rw [R.rela]
    exact S.addends z hz _ (by rw [he]; exact R.used)
  · unfold reach
    rw [h.cost_eq hlib]
    have := hsum ElfFile.cost
    have := S.small
    have : (K + 5) * (0x200000 + 1024 + baseCost l.options + (loaded.map fun x => x.elf.cost).sum) ≤
        (K + 5) * (0x200000 + 1024 + baseCost l.options + ((inputsOf env l).map fun x => x.elf.cost).sum) := Nat.mul_le_mul_left _ (by omega)
    omega

/-- a complete program whose link does not crash links -/
theorem complete_any (hc : CleanFiles env l) (hn : NamesSmall env l) (hv : sched.Valid) (hR : ReadableFiles env l) (hD : DefinedOnce env l) (hx : GlobalIndexes env l) (hnd : l.archives.Nodup)
    (hN : ∀ n, AnyNeeds env l n → n = b!"_GLOBAL_OFFSET_TABLE_" ∨ DefinedGlobally env l n ∨ InSection env l n ∨ InLibrary env l n ∨
      InIndex env l n)
    (hP : ∀ fuel, link env l sched fuel ≠ some (.error .panic)) (hT : ∀ fuel, TablesFit env l sched fuel) :
    ∃ rounds file, ∀ fuel, rounds ≤ fuel → link env l sched fuel = some (.ok file) := by
  obtain ⟨rounds, res, hres⟩ := C60_terminates hx.truthful hv
  have h := hres rounds (Nat.le_refl _)
  cases res with
  | ok file => exact ⟨rounds, file, hres⟩
  | error f =>
    exfalso
    cases f with
    | panic => exact hP rounds h
    | err p k =>
      rcases C83_blame hv h with ⟨rfl, names, rfl⟩ | hb
      · obtain ⟨_, hne, loaded, log, h1, h2, _⟩ := C59_listed hv hc (hT rounds) h
        obtain ⟨n, hn'⟩ := List.exists_mem_of_ne_nil _ hne
        obtain ⟨⟨s, hs, h0, hb⟩, hg, hl, har⟩ := h2 n hn'
        have hneed : AnyNeeds env l n := by
          obtain ⟨x, hxm, h3, h4, h5⟩ := hs
          obtain ⟨j, hj⟩ := List.getElem?_of_mem h3
          exact ⟨_, _, j, s, ⟨_, h1.inputAt hxm, hj, h4, h5⟩, h0, hb⟩
        rcases hN n hneed with rfl | ⟨s', hs', h0', hb'⟩ | hd | ⟨p, s', hp, data, e, hd, he, hs', hn⟩ | ⟨p, hp, data, ar, m, hd, ha, hm'⟩
        · exact listed_got hv (hT rounds) h hn'
        · obtain ⟨ms, e, _⟩ := h1.objects
          obtain ⟨x, hxm, h3⟩ := hs'
          exact h0' (hg s' ⟨x, by rw [e]; exact List.mem_append_left _ hxm, h3⟩ hb')
        · exact listed_section hv hc (hT rounds) h hd hn'
        · exact hl p hp data e hd he s' hs' hn
        · rw [har p hp data ar hd ha] at hm'; cases hm'
      · cases hb with
        | unreadable hp hd =>
          rcases hp with hp | hp | hp
          · obtain ⟨d, e, h1, h2⟩ := hR.objects p hp
            rw [h1] at hd; cases hd
          · obtain ⟨d, e, h1, h2, _⟩ := hR.libraries p hp
            rw [h1] at hd; cases hd
          · obtain ⟨d, e, h1, h2, _⟩ := hR.archives p hp
            rw [h1] at hd; cases hd
        | object hp hd he =>
          obtain ⟨d, e, h1, h2⟩ := hR.objects p hp
          rw [h1] at hd; cases hd
          rw [h2] at he; cases he
        | archive hp hd ha =>
          obtain ⟨d, e, h1, h2, _⟩ := hR.archives p hp
          rw [h1] at hd; cases hd
          rw [h2] at ha; cases ha
        | member hp hd ha hn' hm' he =>
          obtain ⟨e, he', _⟩ := hx.global p hp _ _ hd ha _ _ _ hn' hm'
          rw [he'] at he; cases he
        | sectionName hi hs ht hn =>
          have := hR.sections _ _ _ _ hi hs ht
          rw [hn] at this; cases this
        | symbolName hi hs hn =>
          have := hR.symbols _ _ _ _ hi hs
          rw [hn] at this; cases this
        | dynName hp hd he hs hn =>
          obtain ⟨d, e, h1, h2, h3⟩ := hR.libraries p hp
          rw [h1] at hd; cases hd
          rw [h2] at he; cases he
          have := h3 _ hs
          rw [hn] at this; cases this
        | duplicate hi hb h0 hd hg _ =>
          rcases link_resolved hv h with ⟨e, hg, he⟩ | ⟨log, loaded, w, hg, h1, h2, h3, hfin⟩
          · cases he
            exact gathered_once hn hD hx hnd hv hg _ _ _ rfl
          · rcases finish_error hfin with h | ⟨w', names', hcomp, hne, hnames, h⟩ <;> cases h
        | reloc hi hr' ht hn' =>
          subst ht
          exact hR.relocs _ _ _ _ _ _ _ hi hr' hn'

/-- **C140 for programs with archives and libraries, the part that holds.** As `C140_complete_partial`; the names in the index of an archive are global
definitions of the members, and a name that an object or a member in an index needs may also be in the index of an archive. -/
theorem C140_linked_partial (hc : CleanFiles env l) (hf : SoundFiles env l) (hr : SoundRelocs env l) (hn : NamesSmall env l) (hF : FewFlags env l F)
    (hv : sched.Valid) (hR : ReadableFiles env l) (hD : DefinedOnce env l) (hx : GlobalIndexes env l) (hnd : l.archives.Nodup)
    (hN : ∀ n, AnyNeeds env l n → n = b!"_GLOBAL_OFFSET_TABLE_" ∨ DefinedGlobally env l n ∨ InSection env l n ∨ InLibrary env l n ∨
      InIndex env l n)
    (hm : ∀ fuel, Moderate env l sched fuel) :
    ∃ rounds file, ∀ fuel, rounds ≤ fuel → link env l sched fuel = some (.ok file) := by
  refine complete_any hc hn hv hR hD hx hnd hN (fun rounds h => ?_) fun rounds => (hm rounds).tables hc hf hr hn hF hv
  obtain ⟨log, loaded, w, hg, h1, h2, h3⟩ := C98_no_crash hc hf hr hn hF hv h
  obtain ⟨V, K, fits⟩ := hm rounds w loaded log hg h1 h2
  exact h3 V K fits

/-- **C140 for object files and archives.** All hypotheses are about the contents of the files. -/
theorem C140_archives_partial (hc : CleanFiles env l) (hf : SoundFiles env l) (hr : SoundRelocs env l) (hn : NamesSmall env l) (hF : FewFlags env l F)
    (hv : sched.Valid) (hs : l.options.sharedLibs = []) (S : SmallInputs env l V K) (hb : ∀ n, PlainBinds env l n) (hR : ReadableFiles env l)
    (hD : DefinedOnce env l) (hx : GlobalIndexes env l) (hnd : l.archives.Nodup)
    (hN : ∀ n, AnyNeeds env l n → n = b!"_GLOBAL_OFFSET_TABLE_" ∨ DefinedGlobally env l n ∨ InSection env l n ∨ InIndex env l n) :
    ∃ rounds file, ∀ fuel, rounds ≤ fuel → link env l sched fuel = some (.ok file) :=
  C140_linked_partial hc hf hr hn hF hv hR hD hx hnd (fun n h => (hN n h).imp_right (·.imp_right (·.imp_right .inr)))
    fun _ _ _ _ _ h1 h2 => ⟨V, K, SmallInputs.fits S h1 h2 hc hn hs hx hb⟩

/-! ### An object that needs a member of an archive, which needs another one -/

/-- an object file with `g`, which calls `h` -/
def chainElf : ElfFile :=
  { callerElf with symName := AMap.get? [(0, []), (1, b!"g"), (10, b!"h")] }

/-- an object file with `h` -/
def lastElf : ElfFile := { memberElf with symName := AMap.get? [(0, []), (1, b!"h")] }

def chainAr : ArFile :=
  { index := [(b!"g", b!"g.o"), (b!"h", b!"h.o")]
    get := AMap.get? [(b!"g.o", List.replicate 16 0xcc), (b!"h.o", List.replicate 8 0xc3), (b!"again.o", List.replicate 16 0x90), (b!"junk.o", b!"junk")] }

def chainFiles : List (Path × Bytes) := [(mainPath, List.replicate 16 0x90), (arPath, b!"archive")]
def chainElfs : List (Bytes × ElfFile) := [(List.replicate 16 0x90, callerElf), (List.replicate 16 0xcc, chainElf), (List.replicate 8 0xc3, lastElf)]
def chainEnv : Env := tableEnv chainFiles chainElfs [(b!"archive", chainAr)]
def chainLinker : Linker := { options := Options.default, objects := [mainPath], archives := [arPath] }

theorem chain_archive {p : Path} {data : Bytes} {ar : ArFile} (hp : p ∈ chainLinker.archives) (hd : chainEnv.read p = some data)
    (ha : chainEnv.parseAr data = some ar) : p = arPath ∧ ar = chainAr := by
  cases List.mem_singleton.1 hp
  have hd' : chainEnv.read arPath = some b!"archive" := by decide +kernel
  rw [hd'] at hd; cases hd
  have ha' : chainEnv.parseAr b!"archive" = some chainAr := rfl
  rw [ha'] at ha; cases ha
  exact ⟨rfl, rfl⟩

theorem chain_member {n : Name} {m d : Bytes} (hn : chainAr.memberOfSymbol n = some m) (hm : chainAr.get m = some d) :
    (n, m, d) ∈ [(b!"g", b!"g.o", List.replicate 16 (0xcc : UInt8)), (b!"h", b!"h.o", List.replicate 8 0xc3)] := by
  have := AMap.mem_of_get? hn
  simp only [chainAr, List.mem_cons, List.not_mem_nil, or_false, Prod.mk.injEq] at this
  rcases this with ⟨rfl, rfl⟩ | ⟨rfl, rfl⟩
  · have hm' : chainAr.get b!"g.o" = some (List.replicate 16 0xcc) := by decide +kernel
    rw [hm'] at hm; cases hm; simp
  · have hm' : chainAr.get b!"h.o" = some (List.replicate 8 0xc3) := by decide +kernel
    rw [hm'] at hm; cases hm; simp

theorem chain_input {p : Path} {d : Bytes} {e : ElfFile} (h : InputAt chainEnv chainLinker p d e) :
    (p = mainPath ∧ d = List.replicate 16 0x90 ∧ e = callerElf) ∨ (p = arPath ∧ d = List.replicate 16 0xcc ∧ e = chainElf) ∨
      (p = arPath ∧ d = List.replicate 8 0xc3 ∧ e = lastElf) := by
  cases h with
  | object hp hd he =>
    cases List.mem_singleton.1 hp
    have hd' : chainEnv.read mainPath = some (List.replicate 16 0x90) := by decide +kernel
    rw [hd'] at hd; cases hd
    have he' : chainEnv.parseElf (List.replicate 16 0x90) = some callerElf := rfl
    rw [he'] at he; cases he
    exact .inl ⟨rfl, rfl, rfl⟩
  | member hp hd ha hn hm he =>
    obtain ⟨rfl, rfl⟩ := chain_archive hp hd ha
    have := chain_member hn hm
    simp only [List.mem_cons, List.not_mem_nil, or_false, Prod.mk.injEq] at this
    rcases this with ⟨_, _, rfl⟩ | ⟨_, _, rfl⟩
    · have he' : chainEnv.parseElf (List.replicate 16 0xcc) = some chainElf := rfl
      rw [he'] at he; cases he
      exact .inr (.inl ⟨rfl, rfl, rfl⟩)
    · have he' : chainEnv.parseElf (List.replicate 8 0xc3) = some lastElf := rfl
      rw [he'] at he; cases he
      exact .inr (.inr ⟨rfl, rfl, rfl⟩)

/-- the symbols of the three files -/
def chainSyms : List ((Path × Bytes × Nat) × Sym × Name) :=
  [(mainPath, List.replicate 16 0x90, callerElf), (arPath, List.replicate 16 0xcc, chainElf), (arPath, List.replicate 8 0xc3, lastElf)].flatMap fun x =>
    x.2.2.syms.zipIdx.filterMap fun y => (x.2.2.symName y.1.st_name).map fun n => ((x.1, x.2.1, y.2), y.1, n)

theorem chain_sym {p : Path} {d : Bytes} {j : Nat} {s : Sym} {n : Name} (h : InputSym chainEnv chainLinker p d j s n) : ((p, d, j), s, n) ∈ chainSyms := by
  obtain ⟨e, hi, hj, hn, _⟩ := h
  refine List.mem_flatMap.2 ⟨(p, d, e), ?_, List.mem_filterMap.2 ⟨(s, j), List.mem_zipIdx_iff_getElem?.2 hj, by simp only [hn]; rfl⟩⟩
  rcases chain_input hi with ⟨rfl, rfl, rfl⟩ | ⟨rfl, rfl, rfl⟩ | ⟨rfl, rfl, rfl⟩ <;> simp

theorem chain_sound : SoundFiles chainEnv chainLinker := by
  refine SoundFiles.of_table (by decide +kernel) (by decide) (by intro p hp; cases hp) ?_
  intro p hp data ar n m hd ha hn
  obtain ⟨rfl, rfl⟩ := chain_archive hp hd ha
  have := AMap.mem_of_get? hn
  simp only [chainAr, List.mem_cons, List.not_mem_nil, or_false, Prod.mk.injEq] at this
  rcases this with ⟨rfl, rfl⟩ | ⟨rfl, rfl⟩
  · refine ⟨List.replicate 16 0xcc, by decide +kernel, fun e he => ?_⟩
    have he' : AMap.get? chainElfs (List.replicate 16 0xcc) = some chainElf := rfl
    rw [he'] at he; cases he; rfl
  · refine ⟨List.replicate 8 0xc3, by decide +kernel, fun e he => ?_⟩
    have he' : AMap.get? chainElfs (List.replicate 8 0xc3) = some lastElf := rfl
    rw [he'] at he; cases he; rfl

theorem chain_readable : ReadableFiles chainEnv chainLinker := by
  have hall : ∀ p d e, InputAt chainEnv chainLinker p d e → readableElf e = true := by
    intro p d e hi
    rcases chain_input hi with ⟨_, _, rfl⟩ | ⟨_, _, rfl⟩ | ⟨_, _, rfl⟩ <;> decide +kernel
  refine ⟨?_, (by intro p hp; cases hp), ?_, ?_, ?_, ?_⟩
  · intro p hp
    cases List.mem_singleton.1 hp
    exact ⟨List.replicate 16 0x90, callerElf, by decide +kernel, rfl⟩
  · intro p hp
    cases List.mem_singleton.1 hp
    refine ⟨b!"archive", chainAr, by decide +kernel, rfl, fun n m b hn hm => ?_⟩
    have := chain_member hn hm
    simp only [List.mem_cons, List.not_mem_nil, or_false, Prod.mk.injEq] at this
    rcases this with ⟨_, _, rfl⟩ | ⟨_, _, rfl⟩ <;> rfl
  · intro p d e sh hi hsh _
    have := hall p d e hi
    simp only [readableElf, Bool.and_eq_true, List.all_eq_true] at this
    exact this.1.1 sh hsh
  · intro p d e s hi hs
    have := hall p d e hi
    simp only [readableElf, Bool.and_eq_true, List.all_eq_true] at this
    exact this.1.2 s hs
  · intro p d e k pos j rel hi hr
    have := hall p d e hi
    simp only [readableElf, Bool.and_eq_true, List.all_eq_true] at this
    simpa using this.2 _ hr

theorem chain_once : DefinedOnce chainEnv chainLinker := by
  refine ⟨by decide, ?_⟩
  intro n p d j s p' d' j' s' h1 a1 a2 h2 a4
  have := (by decide +kernel : ∀ x ∈ chainSyms, ∀ y ∈ chainSyms, x.2.2 = y.2.2 → x.2.1.st_info / 16 = 1 → x.2.1.st_shndx ≠ 0 → y.2.1.st_shndx ≠ 0 → y.1 = x.1)
    _ (chain_sym h1) _ (chain_sym h2) rfl a1 a2 a4
  simpa using this

theorem chain_indexes : GlobalIndexes chainEnv chainLinker := by
  refine ⟨?_, ?_⟩
  · intro p hp data ar hd ha n m d hn hm
    obtain ⟨rfl, rfl⟩ := chain_archive hp hd ha
    have := chain_member hn hm
    simp only [List.mem_cons, List.not_mem_nil, or_false, Prod.mk.injEq] at this
    rcases this with ⟨rfl, _, rfl⟩ | ⟨rfl, _, rfl⟩
    · exact ⟨chainElf, rfl, rfl, { demoSym STT_FUNC 1 4 12 with st_name := 1 }, by decide, by decide, by decide, by decide, by decide⟩
    · exact ⟨lastElf, rfl, rfl, { demoSym STT_FUNC 1 0 8 with st_name := 1 }, by decide, by decide, by decide, by decide, by decide⟩
  · intro p hp data ar hd ha n m n' m' d hn hn' hm hm'
    obtain ⟨rfl, rfl⟩ := chain_archive hp hd ha
    have h1 := chain_member hn hm
    have h2 := chain_member hn' hm'
    have := (by decide : ∀ x ∈ [(b!"g", b!"g.o", List.replicate 16 (0xcc : UInt8)), (b!"h", b!"h.o", List.replicate 8 0xc3)],
      ∀ y ∈ [(b!"g", b!"g.o", List.replicate 16 (0xcc : UInt8)), (b!"h", b!"h.o", List.replicate 8 0xc3)], x.2.2 = y.2.2 → x.2.1 = y.2.1) _ h1 _ h2 rfl
    exact this

theorem chain_plain (n : Name) : PlainBinds chainEnv chainLinker n := by
  intro e he s hs _
  have he := he.of_table
  exact (by decide +kernel : ∀ e ∈ chainElfs.map (·.2), ∀ s ∈ e.syms, s.st_info / 16 ≤ 2) e he s hs

theorem chain_small : SmallInputs chainEnv chainLinker 100 1 := by
  refine ⟨by decide +kernel, by decide +kernel, ⟨by decide, ?_⟩, by decide +kernel⟩
  intro n
  have : (inputsOf chainEnv chainLinker).map (fun x => x.elf.definitions n) = [callerElf.definitions n, chainElf.definitions n, lastElf.definitions n] := rfl
  rw [this]
  have h1 : callerElf.definitions n = if b!"_start" = n then 1 else 0 := by
    simp only [ElfFile.definitions, callerElf, mainElf, demoSym, STT_FUNC, List.filter, AMap.get?]
    by_cases h : b!"_start" = n <;> simp [h]
  have h2 : chainElf.definitions n = if b!"g" = n then 1 else 0 := by
    simp only [ElfFile.definitions, chainElf, callerElf, mainElf, demoSym, STT_FUNC, List.filter, AMap.get?]
    by_cases h : b!"g" = n <;> simp [h]
  have h3 : lastElf.definitions n = if b!"h" = n then 1 else 0 := by
    simp only [ElfFile.definitions, lastElf, memberElf, demoSym, STT_FUNC, List.filter, AMap.get?]
    by_cases h : b!"h" = n <;> simp [h]
  rw [h1, h2, h3]
  by_cases h : b!"_start" = n
  · subst h; decide
  · rw [if_neg h]
    by_cases h' : b!"g" = n
    · subst h'; decide
    · rw [if_neg h']
      by_cases h'' : b!"h" = n
      · subst h''; decide
      · rw [if_neg h'']; decide

/-- all requirements are met, and the link succeeds -/
example (sched : LinkSched) (hv : sched.Valid) : ∃ rounds file, ∀ fuel, rounds ≤ fuel → link chainEnv chainLinker sched fuel = some (.ok file) := by
  refine C140_archives_partial (F := [0, 6]) (V := 100) (K := 1) (CleanFiles.of_table (by decide +kernel)) chain_sound
    (SoundRelocs.of_table (by decide +kernel) (by decide +kernel)) (NamesSmall.of_table (by decide +kernel)) (FewFlags.of_table (by decide +kernel) (by decide)) hv rfl
    chain_small chain_plain chain_readable chain_once chain_indexes (by decide) ?_
  rintro n ⟨p, d, j, s, h, h0, hb⟩
  have := (by decide +kernel : ∀ x ∈ chainSyms, x.2.1.st_shndx = 0 → (x.2.1.st_info / 16 = 1 ∨ x.2.1.st_info / 16 = 2) → x.2.2 = b!"g" ∨ x.2.2 = b!"h") _ (chain_sym h) h0 hb
  have hd : chainEnv.read arPath = some b!"archive" := by decide +kernel
  rcases this with h | h
  · exact .inr (.inr (.inr ⟨arPath, by decide, b!"archive", chainAr, b!"g.o", hd, rfl, by rw [show n = b!"g" from h]; decide⟩))
  · exact .inr (.inr (.inr ⟨arPath, by decide, b!"archive", chainAr, b!"h.o", hd, rfl, by rw [show n = b!"h" from h]; decide⟩))

end Linker
end Dld
