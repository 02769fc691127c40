import Verif.Lemmas.Reached
import Verif.Props.CompleteAll
/-! # C152: members of archives that nothing asks for -/
namespace Dld
open Writer Spec StringTable
namespace Linker
variable {env env' : Env} {l : Linker} {sched : LinkSched} {F : List Nat} {V K : Nat}

/-- **C152**: the outcome of a link does not depend on what the archives have for names that the link cannot ask for: worlds with the same objects and
libraries, in which the archives answer alike when asked for a name that a reached file leaves undefined, no object defines globally and no library has, give
the same executable or the same error. -/
theorem C152_unasked (hv : sched.Valid) (hn : NamesReached env l) (h : SameAnswers env env' l (Asked env l)) (fuel : Nat) :
    link env' l sched fuel = link env l sched fuel :=
  (link_same hv (reachedEnv_same h) (reachedEnv_names hn) fuel).trans (link_reached hv hn fuel).symm

/-- **C140 for objects, archives and libraries, of which only what the link can reach matters.** The requirements of `C140_whole_partial` are made of the world in
which the indexes of the archives have no other names than those the link can ask for; members that are not reached may be damaged, define names that the
objects define, and need names that nothing has. -/
theorem C140_reached_partial (hv : sched.Valid) (hn : NamesReached env l) (hc : CleanFiles (reachedEnv env l) l) (hf : SoundFiles (reachedEnv env l) l)
    (hr : SoundRelocs (reachedEnv env l) l) (hF : FewFlags (reachedEnv env l) l F) (S : SmallWhole (reachedEnv env l) l V K)
    (hb : ∀ n, PlainBinds (reachedEnv env l) l n) (hR : ReadableFiles (reachedEnv env l) l) (hD : DefinedOnce (reachedEnv env l) l)
    (hx : GlobalIndexes (reachedEnv env l) l) (hnd : l.archives.Nodup)
    (hN : ∀ e n, Reached env l e → e.leaves n → n = b!"_GLOBAL_OFFSET_TABLE_" ∨ DefinedGlobally env l n ∨ InSection env l n ∨
      InLibrary env l n ∨ InIndex (reachedEnv env l) l n) :
    ∃ rounds file, ∀ fuel, rounds ≤ fuel → link env l sched fuel = some (.ok file) := by
  obtain ⟨rounds, file, h⟩ := C140_whole_partial hc hf hr (reachedEnv_names hn) hF hv S hb hR hD hx hnd (by
    rintro n ⟨p, d, j, s, ⟨e, hi, hj, hsn, h3⟩, h0, hb⟩
    exact hN e n (reachedEnv_input hi) ⟨s, List.mem_of_getElem? hj, hsn, h3, h0, hb⟩)
  exact ⟨rounds, file, fun fuel hle => by rw [link_reached hv hn]; exact h fuel hle⟩

/-! ### An archive with members that nothing asks for -/

/-- the archive of `chainEnv` with two more entries: `again.o` defines `_start` a second time, `junk.o` is damaged -/
def bigAr : ArFile := { chainAr with index := chainAr.index ++ [(b!"_start", b!"again.o"), (b!"junk", b!"junk.o")] }

def bigEnv : Env := tableEnv chainFiles chainElfs [(b!"archive", bigAr)]

theorem chain_defines : DefinedGlobally bigEnv chainLinker b!"_start" :=
  ⟨{ demoSym STT_FUNC 1 4 12 with st_name := 1 }, ⟨⟨.object 0, mainPath, List.replicate 16 0x90, callerElf⟩, by
    show _ ∈ [(⟨.object 0, mainPath, List.replicate 16 0x90, callerElf⟩ : Loaded)]
    simp, by decide, by decide, by decide⟩, by decide, by decide⟩

/-- a reached file is one of the three -/
theorem big_reached {e : ElfFile} (h : Reached bigEnv chainLinker e) : e ∈ [callerElf, chainElf, lastElf] := by
  induction h with
  | object hp hd he ho =>
    cases List.mem_singleton.1 hp
    have hd' : bigEnv.read mainPath = some (List.replicate 16 0x90) := by decide +kernel
    rw [hd'] at hd; cases hd
    have he' : bigEnv.parseElf (List.replicate 16 0x90) = some callerElf := rfl
    rw [he'] at he; cases he
    simp
  | member h hu hg hl hp hd ha hn hm he ho ih =>
    cases List.mem_singleton.1 hp
    have hd' : bigEnv.read arPath = some b!"archive" := by decide +kernel
    rw [hd'] at hd; cases hd
    have ha' : bigEnv.parseAr b!"archive" = some bigAr := rfl
    rw [ha'] at ha; cases ha
    have := AMap.mem_of_get? hn
    simp only [bigAr, chainAr, List.mem_append, List.mem_cons, List.not_mem_nil, or_false, Prod.mk.injEq] at this
    rcases this with (⟨rfl, rfl⟩ | ⟨rfl, rfl⟩) | ⟨rfl, rfl⟩ | ⟨rfl, rfl⟩
    · have hm' : bigAr.get b!"g.o" = some (List.replicate 16 0xcc) := by decide +kernel
      rw [hm'] at hm; cases hm
      have he' : bigEnv.parseElf (List.replicate 16 0xcc) = some chainElf := rfl
      rw [he'] at he; cases he
      simp
    · have hm' : bigAr.get b!"h.o" = some (List.replicate 8 0xc3) := by decide +kernel
      rw [hm'] at hm; cases hm
      have he' : bigEnv.parseElf (List.replicate 8 0xc3) = some lastElf := rfl
      rw [he'] at he; cases he
      simp
    · exact absurd chain_defines hg
    · have hm' : bigAr.get b!"junk.o" = some b!"junk" := by decide +kernel
      rw [hm'] at hm; cases hm
      have he' : bigEnv.parseElf b!"junk" = none := by decide +kernel
      rw [he'] at he; cases he

/-- the names the three files leave undefined -/
theorem big_leaves {e : ElfFile} {n : Name} (he : e ∈ [callerElf, chainElf, lastElf]) (h : e.leaves n) : (e = callerElf ∧ n = b!"g") ∨ (e = chainElf ∧ n = b!"h") := by
  obtain ⟨s, hs, hn, h3, h0, hb⟩ := h
  simp only [List.mem_cons, List.not_mem_nil, or_false] at he
  rcases he with rfl | rfl | rfl
  · left
    have := (by decide +kernel : ∀ s ∈ callerElf.syms, s.st_shndx = 0 → (s.st_info / 16 = 1 ∨ s.st_info / 16 = 2) → callerElf.symName s.st_name = some b!"g") s hs h0 hb
    rw [hn] at this; cases this; exact ⟨rfl, rfl⟩
  · right
    have := (by decide +kernel : ∀ s ∈ chainElf.syms, s.st_shndx = 0 → (s.st_info / 16 = 1 ∨ s.st_info / 16 = 2) → chainElf.symName s.st_name = some b!"h") s hs h0 hb
    rw [hn] at this; cases this; exact ⟨rfl, rfl⟩
  · have := (by decide +kernel : ∀ s ∈ lastElf.syms, s.st_shndx = 0 → (s.st_info / 16 = 1 ∨ s.st_info / 16 = 2) → False) s hs h0 hb
    exact this.elim

theorem big_asked {n : Name} : Asked bigEnv chainLinker n ↔ n = b!"g" ∨ n = b!"h" := by
  have undefined : ∀ n, n = b!"g" ∨ n = b!"h" → ¬ DefinedGlobally bigEnv chainLinker n ∧ NotInLibs bigEnv chainLinker n := by
    intro n hn
    refine ⟨?_, fun p hp => nomatch hp⟩
    rintro ⟨s, ⟨x, hx, h1, h2, _⟩, h0, hb⟩
    have hx : x ∈ [(⟨.object 0, mainPath, List.replicate 16 0x90, callerElf⟩ : Loaded)] := hx
    cases List.mem_singleton.1 hx
    have := (by decide +kernel : ∀ s ∈ callerElf.syms, s.st_shndx ≠ 0 → s.st_info / 16 = 1 → callerElf.symName s.st_name = some b!"_start") s h1 h0 hb
    rw [h2] at this; cases this
    rcases hn with h | h <;> exact absurd h (by decide)
  have main : Reached bigEnv chainLinker callerElf := .object (p := mainPath) (d := List.replicate 16 0x90) (by decide) (by decide +kernel) rfl rfl
  have calls : callerElf.leaves b!"g" := ⟨{ demoSym 0 0 0 0 with st_name := 10 }, by decide, by decide, by decide, by decide, by decide⟩
  have calls' : chainElf.leaves b!"h" := ⟨{ demoSym 0 0 0 0 with st_name := 10 }, by decide, by decide, by decide, by decide, by decide⟩
  constructor
  · rintro ⟨⟨e, he, hl⟩, _⟩
    exact (big_leaves (big_reached he) hl).imp (·.2) (·.2)
  · rintro (rfl | rfl)
    · exact ⟨⟨_, main, calls⟩, undefined _ (.inl rfl)⟩
    · have u := undefined b!"g" (.inl rfl)
      exact ⟨⟨_, .member main calls u.1 u.2 (p := arPath) (data := b!"archive") (ar := bigAr) (m := b!"g.o") (d := List.replicate 16 0xcc) (by decide) (by decide +kernel) rfl
        (by decide +kernel) (by decide +kernel) rfl rfl, calls'⟩, undefined _ (.inr rfl)⟩

/-- what is reached of the archive is the smaller archive -/
theorem big_env : reachedEnv bigEnv chainLinker = chainEnv := by
  have har : bigAr.only (Asked bigEnv chainLinker) = chainAr := by
    unfold ArFile.only
    have : bigAr.index.filter (fun e => @decide (Asked bigEnv chainLinker e.1) (Classical.propDecidable _)) = chainAr.index := by
      have e : (fun e : Name × Bytes => @decide (Asked bigEnv chainLinker e.1) (Classical.propDecidable _)) = fun e => decide (e.1 = b!"g" ∨ e.1 = b!"h") := by
        funext e
        rw [Bool.eq_iff_iff]
        simp only [decide_eq_true_eq]
        exact big_asked
      rw [e]
      rfl
    rw [this]; rfl
  unfold reachedEnv chainEnv bigEnv tableEnv
  congr 1
  funext d
  simp only [AMap.get?]
  split
  · exact congrArg some har
  · rfl

theorem big_names : NamesReached bigEnv chainLinker := by
  have := NamesSmall.of_table (files := chainFiles) (elfs := chainElfs) (ars := [(b!"archive", chainAr)]) (l := chainLinker) (by decide +kernel)
  intro ns hd hns
  refine this ns hd fun n hn => (hns n hn).imp id ?_
  rintro ⟨e, s, he, hs, hn⟩
  have hg : chainEnv.read arPath = some b!"archive" := by decide +kernel
  have := big_reached he
  simp only [List.mem_cons, List.not_mem_nil, or_false] at this
  rcases this with rfl | rfl | rfl
  · exact ⟨mainPath, List.replicate 16 0x90, _, s, .object (by decide) (by decide +kernel) rfl rfl, hs, hn⟩
  · exact ⟨arPath, List.replicate 16 0xcc, _, s, .member (ar := chainAr) (n := b!"g") (m := b!"g.o") (by decide) hg rfl (by decide +kernel) (by decide +kernel) rfl rfl, hs, hn⟩
  · exact ⟨arPath, List.replicate 8 0xc3, _, s, .member (ar := chainAr) (n := b!"h") (m := b!"h.o") (by decide) hg rfl (by decide +kernel) (by decide +kernel) rfl rfl, hs, hn⟩

/-- the two more members change nothing -/
example (hv : sched.Valid) (fuel : Nat) : link chainEnv chainLinker sched fuel = link bigEnv chainLinker sched fuel := by
  refine C152_unasked (env := bigEnv) (env' := chainEnv) hv big_names ⟨fun _ => rfl, fun _ _ => rfl, fun p hp => ?_⟩ fuel
  cases List.mem_singleton.1 hp
  refine .inr ⟨bigAr, chainAr, rfl, rfl, fun n hn => ?_⟩
  rcases big_asked.1 hn with rfl | rfl
  · exact ⟨rfl, fun _ _ => rfl⟩
  · exact ⟨rfl, fun _ _ => rfl⟩

/-- the program links although the archive has a second `_start` and a damaged member -/
example (hv : sched.Valid) : ∃ rounds file, ∀ fuel, rounds ≤ fuel → link bigEnv chainLinker sched fuel = some (.ok file) := by
  have hg : chainEnv.read arPath = some b!"archive" := by decide +kernel
  refine C140_reached_partial (F := [0, 6]) (V := 100) (K := 1) hv big_names (by rw [big_env]; exact CleanFiles.of_table (by decide +kernel)) (by rw [big_env]; exact chain_sound)
    (by rw [big_env]; exact SoundRelocs.of_table (by decide +kernel) (by decide +kernel)) (by rw [big_env]; exact FewFlags.of_table (by decide +kernel) (by decide))
    (by rw [big_env]; exact SmallWhole.of_inputs rfl chain_small) (by rw [big_env]; exact chain_plain) (by rw [big_env]; exact chain_readable) (by rw [big_env]; exact chain_once)
    (by rw [big_env]; exact chain_indexes) (by decide) ?_
  intro e n he hl
  rw [big_env]
  rcases big_leaves (big_reached he) hl with ⟨_, rfl⟩ | ⟨_, rfl⟩
  · exact .inr (.inr (.inr (.inr ⟨arPath, by decide, b!"archive", chainAr, b!"g.o", hg, rfl, by decide⟩)))
  · exact .inr (.inr (.inr (.inr ⟨arPath, by decide, b!"archive", chainAr, b!"h.o", hg, rfl, by decide⟩)))

end Linker
end Dld
