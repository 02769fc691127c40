import Verif.Props.Unused
import Verif.Props.Reached
import Verif.Props.Complete
/-! # C158: objects come before archives -/
namespace Dld
open Writer Spec StringTable
namespace Linker
variable {env : Env} {l : Linker}

/-- with an archive that has nothing for the names that are asked for, the same files are reached -/
theorem withArchive_reached {p : Path} {data : Bytes} {ar : ArFile} (hd : env.read p = some data) (ha : env.parseAr data = some ar)
    (hno : ∀ n, Asked env l n → ar.memberOfSymbol n = none) {e : ElfFile} : Reached env (l.withArchive p) e ↔ Reached env l e := by
  constructor
  · intro h
    induction h with
    | object hp hd he ho => exact .object hp hd he ho
    | member h hu hg hl hp hd' ha' hn hm he ho ih =>
      rcases List.mem_cons.1 hp with rfl | hp
      · rw [hd] at hd'; cases hd'
        rw [ha] at ha'; cases ha'
        rw [hno _ ⟨⟨_, ih, hu⟩, hg, hl⟩] at hn; cases hn
      · exact .member ih hu hg hl hp hd' ha' hn hm he ho
  · intro h
    induction h with
    | object hp hd he ho => exact .object hp hd he ho
    | member h hu hg hl hp hd' ha' hn hm he ho ih => exact .member ih hu hg hl (List.mem_cons_of_mem _ hp) hd' ha' hn hm he ho

theorem withArchive_asked {p : Path} {data : Bytes} {ar : ArFile} (hd : env.read p = some data) (ha : env.parseAr data = some ar)
    (hno : ∀ n, Asked env l n → ar.memberOfSymbol n = none) : Asked env (l.withArchive p) = Asked env l := by
  funext n
  refine propext ⟨fun ⟨⟨e, h1, h2⟩, h3, h4⟩ => ⟨⟨e, (withArchive_reached hd ha hno).1 h1, h2⟩, h3, h4⟩,
    fun ⟨⟨e, h1, h2⟩, h3, h4⟩ => ⟨⟨e, (withArchive_reached hd ha hno).2 h1, h2⟩, h3, h4⟩⟩

/-- **C158**: giving the linker one more archive does not change the outcome when its index has none of the names that a reached file leaves undefined, unless an
object of the command line defines the name globally or a library has it. -/
theorem C158_override {p : Path} {data : Bytes} {ar : ArFile} (hd : env.read p = some data) (ha : env.parseAr data = some ar)
    (hno : ∀ e n, Reached env l e → e.leaves n → (ar.memberOfSymbol n).isSome → DefinedGlobally env l n ∨ ¬ NotInLibs env l n)
    (hn : NamesReached env l) : SameOutcomes env l (l.withArchive p) := by
  have hno : ∀ n, Asked env l n → ar.memberOfSymbol n = none := by
    rintro n ⟨⟨e, h1, h2⟩, h3, h4⟩
    cases hm : ar.memberOfSymbol n with
    | none => rfl
    | some m => exact ((hno e n h1 h2 (by rw [hm]; rfl)).elim h3 (· h4)).elim
  have hA := withArchive_asked hd ha hno
  have hE : reachedEnv env (l.withArchive p) = reachedEnv env l := by unfold reachedEnv; rw [hA]
  have hn' : NamesReached env (l.withArchive p) := fun ns hnd hns => hn ns hnd fun n hm => (hns n hm).imp id fun ⟨e, s, h1, h2⟩ =>
    ⟨e, s, (withArchive_reached hd ha hno).1 h1, h2⟩
  have h : SameOutcomes (reachedEnv env l) l (l.withArchive p) := by
    refine C129_archive ⟨data, ar.only (Asked env l), hd, by show (env.parseAr data).map _ = _; rw [ha]; rfl, fun q hq => ?_⟩ (reachedEnv_names hn)
    have hq := List.mem_filter.1 hq
    have hask : Asked env l q.1 := by simpa using hq.2
    have : (ar.memberOfSymbol q.1).isSome := AMap.get?_isSome.2 (List.mem_map_of_mem hq.1)
    rw [hno _ hask] at this; cases this
  refine ⟨fun sched hv => ?_, fun sched hv => ?_⟩
  · obtain ⟨sched', hv', h⟩ := h.right sched hv
    refine ⟨sched', hv', fun fuel => ?_⟩
    rw [link_reached hv' hn', hE, h, ← link_reached hv hn]
  · obtain ⟨sched', hv', h⟩ := h.left sched hv
    refine ⟨sched', hv', fun fuel => ?_⟩
    rw [link_reached hv hn', hE, h, ← link_reached hv' hn]

/-! ### An object with its own `g` -/

def ownFiles : List (Path × Bytes) := pairFiles ++ [(arPath, b!"archive")]
def ownAr : ArFile := { index := [(b!"g", b!"g.o"), (b!"k", b!"k.o")], get := AMap.get? [(b!"g.o", List.replicate 16 0xcc), (b!"k.o", b!"text")] }
def ownEnv : Env := tableEnv ownFiles (pairElfs ++ [(List.replicate 16 0xcc, chainElf)]) [(b!"archive", ownAr)]

theorem own_reached {e : ElfFile} (h : Reached ownEnv pairLinker e) : e = callerElf ∨ e = memberElf := by
  cases h with
  | object hp hd he ho =>
    rename_i p d
    have hp : p = mainPath ∨ p = calleePath := by simpa [pairLinker] using hp
    rcases hp with rfl | rfl
    · have hd' : ownEnv.read mainPath = some (List.replicate 16 0x90) := by decide +kernel
      rw [hd'] at hd; cases hd
      have he' : ownEnv.parseElf (List.replicate 16 0x90) = some callerElf := rfl
      rw [he'] at he; cases he
      exact .inl rfl
    · have hd' : ownEnv.read calleePath = some (List.replicate 8 0xc3) := by decide +kernel
      rw [hd'] at hd; cases hd
      have he' : ownEnv.parseElf (List.replicate 8 0xc3) = some memberElf := rfl
      rw [he'] at he; cases he
      exact .inr rfl
  | member h hu hg hl hp => cases hp

/-- an archive with another `g`, and with a damaged member, makes no difference -/
example : SameOutcomes ownEnv pairLinker (pairLinker.withArchive arPath) := by
  refine C158_override (data := b!"archive") (ar := ownAr) (by decide +kernel) rfl ?_ ?_
  · rintro e n he ⟨s, hs, hn, _, h0, hb⟩ _
    left
    have key : ∀ e ∈ [callerElf, memberElf], ∀ s ∈ e.syms, s.st_shndx = 0 → (s.st_info / 16 = 1 ∨ s.st_info / 16 = 2) → e.symName s.st_name = some b!"g" := by decide +kernel
    have := key e (by rcases own_reached he with rfl | rfl <;> simp) s hs h0 hb
    rw [hn] at this; cases this
    refine ⟨{ demoSym STT_FUNC 1 0 8 with st_name := 1 }, ⟨⟨.object 1, calleePath, List.replicate 8 0xc3, memberElf⟩, ?_, by decide, by decide, by decide⟩, by decide, by decide⟩
    show _ ∈ [(⟨.object 0, mainPath, List.replicate 16 0x90, callerElf⟩ : Loaded), ⟨.object 1, calleePath, List.replicate 8 0xc3, memberElf⟩]
    simp
  · have := NamesSmall.of_table (files := ownFiles) (elfs := pairElfs ++ [(List.replicate 16 0xcc, chainElf)]) (ars := [(b!"archive", ownAr)]) (l := pairLinker) (by decide +kernel)
    intro ns hd hns
    refine this ns hd fun n hn => (hns n hn).imp id ?_
    rintro ⟨e, s, he, hs, hn⟩
    cases he with
    | object hp hd he ho => exact ⟨_, _, e, s, .object hp hd he ho, hs, hn⟩
    | member _ _ _ _ hp => cases hp

end Linker
end Dld
