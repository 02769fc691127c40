import Verif.Props.MoreLibs
import Verif.Props.Shuffled
/-! # More shared libraries for a program with archives: C156 -/
namespace Dld
open Writer Spec StringTable

section
variable {env : Env} {l l' : Linker}

theorem MoreLibraries.at' (h : MoreLibraries l l') {p : Path} {d : Bytes} {e : ElfFile} (hi : InputAt env l' p d e) : InputAt env l p d e := by
  cases hi with
  | object hp hd he ho => exact .object (by rw [← h.objects]; exact hp) hd he ho
  | member hp hd ha hn hm he ho => exact .member (by rw [← h.archives]; exact hp) hd ha hn hm he ho

theorem MoreLibraries.input' (h : MoreLibraries l l') {e : ElfFile} (hi : IsInput env l' e) : IsInput env l e := by
  cases hi with
  | object hp hd he ho => exact .object (by rw [← h.objects]; exact hp) hd he ho
  | member hp hd ha hm he ho => exact .member (by rw [← h.archives]; exact hp) hd ha hm he ho

theorem MoreLibraries.inputs (h : MoreLibraries l l') : inputsOf env l' = inputsOf env l := by
  unfold inputsOf membersOf
  rw [h.loaded, h.archives]

theorem MoreLibraries.whole (h : MoreLibraries l l') {V K : Nat} (hS : SmallWhole env l' V K) : SmallWhole env l V K := by
  have hb : baseCost l'.options = baseCost l.options := by rw [h.rest]; rfl
  obtain ⟨extra, he⟩ := h.libs
  have hs := (he.map (libraryCost env)).sum_nat
  rw [List.map_append, List.sum_append] at hs
  have h1 := hS.values
  have h2 := hS.addends
  have h3 := hS.definitions
  have h4 := hS.small
  rw [h.inputs] at h1 h2 h3 h4
  refine ⟨h1, h2, h3, ?_⟩
  rw [hb, hs] at h4
  refine Nat.lt_of_le_of_lt (Nat.mul_le_mul_left 4 (Nat.add_le_add_left (Nat.mul_le_mul_left (K + 5) ?_) V)) h4
  omega

theorem MoreLibraries.globally (h : MoreLibraries l l') {n : Name} : DefinedGlobally env l' n ↔ DefinedGlobally env l n := by
  unfold DefinedGlobally
  rw [h.loaded]

theorem MoreLibraries.notIn (h : MoreLibraries l l') {n : Name} (hn : NotInLibs env l' n) : NotInLibs env l n := fun p hp => hn p (h.mem hp)

/-- with more libraries fewer members are reached -/
theorem MoreLibraries.reached (h : MoreLibraries l l') {e : ElfFile} (hr : Reached env l' e) : Reached env l e := by
  induction hr with
  | object hp hd he ho => exact .object (by rw [← h.objects]; exact hp) hd he ho
  | member _ hu hg hl hp hd ha hn hm he ho ih =>
    exact .member ih hu (fun hd => hg (h.globally.2 hd)) (h.notIn hl) (by rw [← h.archives]; exact hp) hd ha hn hm he ho

theorem MoreLibraries.asked (h : MoreLibraries l l') {n : Name} (ha : Asked env l' n) : Asked env l n := by
  obtain ⟨⟨e, he, hl⟩, hg, hn⟩ := ha
  exact ⟨⟨e, h.reached he, hl⟩, fun hd => hg (h.globally.2 hd), h.notIn hn⟩

theorem MoreLibraries.namesReached (h : MoreLibraries l l') (hn : NamesReached env l) : NamesReached env l' := by
  intro ns hnd hall
  refine hn ns hnd fun n hm => (hall n hm).imp_right ?_
  rintro ⟨e, s, he, hs⟩
  exact ⟨e, s, h.reached he, hs⟩

/-- the archives of the world in which only the names of the first link can be asked for answer the second link as before -/
theorem MoreLibraries.answers (h : MoreLibraries l l') : SameAnswers env (reachedEnv env l) l' (Asked env l') := by
  refine ⟨fun _ => rfl, fun _ _ => rfl, fun p _ => ?_⟩
  have hb : ((reachedEnv env l).read p).bind (reachedEnv env l).parseAr = ((env.read p).bind env.parseAr).map (·.only (Asked env l)) := by
    show (env.read p).bind (fun d => (env.parseAr d).map _) = _
    cases env.read p <;> rfl
  cases hq : (env.read p).bind env.parseAr with
  | none => exact .inl ⟨rfl, by rw [hb, hq]; rfl⟩
  | some ar =>
    refine .inr ⟨ar, ar.only (Asked env l), rfl, by rw [hb, hq]; rfl, fun n hn => ⟨?_, fun _ _ => rfl⟩⟩
    haveI := Classical.propDecidable (Asked env l n)
    rw [Linker.memberOfSymbol_only, if_pos (h.asked hn)]

end

namespace Linker
variable {env : Env} {l l' : Linker} {sched sched' : LinkSched} {fuel : Nat} {F : List Nat} {V K : Nat} {file : Bytes}

/-- **C156 with archives.** If a link of objects, archives and libraries succeeds, then it also succeeds with more libraries, and with the libraries in another
order: also if a library has some names of a member that was linked so far and is still linked because of its other names. -/
theorem C156_archives (hv : sched.Valid) (hv' : sched'.Valid) (hn : NamesReached env l) (hc : CleanFiles (reachedEnv env l) l') (hf : SoundFiles (reachedEnv env l) l')
    (hr : SoundRelocs (reachedEnv env l) l) (hF : FewFlags (reachedEnv env l) l F) (S : SmallWhole (reachedEnv env l) l' V K)
    (hb : ∀ n, PlainBinds (reachedEnv env l) l n) (hR : ReadableFiles (reachedEnv env l) l') (hD : DefinedOnce (reachedEnv env l) l)
    (hx : GlobalIndexes (reachedEnv env l) l) (hnd : l.archives.Nodup) (hg : GlobalDefinitions (reachedEnv env l) l) (hw : WholeIndexes env l)
    (hL : LinkerNames (reachedEnv env l) l) (hm : MoreLibraries l l') (h : link env l sched fuel = some (.ok file)) :
    ∃ rounds file', ∀ fuel', rounds ≤ fuel' → link env l' sched' fuel' = some (.ok file') := by
  have hr' : SoundRelocs (reachedEnv env l) l' := by
    refine ⟨fun p d e k pos j rel hi => hr.type p d e k pos j rel (hm.at' hi), fun p d e k pos j rel sh hi => hr.home p d e k pos j rel sh (hm.at' hi),
      fun p d e k pos j rel s n hi hrel ht hs hn => ?_, fun p d e hi => hr.apart p d e (hm.at' hi),
      fun p d e k pos j rel sh n hi hrel hs hn p' d' e' sh' hi' => hr.loaded p d e k pos j rel sh n (hm.at' hi) hrel hs hn p' d' e' sh' (hm.at' hi')⟩
    obtain ⟨h1, h2⟩ := hr.tls p d e k pos j rel s n (hm.at' hi) hrel ht hs hn
    exact ⟨h1, fun p d e s hi => h2 p d e s (hm.at' hi)⟩
  have hn' : NamesSmall (reachedEnv env l) l' := by
    intro ns hnd hall
    refine hn ns hnd fun n hmem => (hall n hmem).imp_right ?_
    rintro ⟨p, d, e, s, hi, hs⟩
    exact ⟨e, s, reachedEnv_input (hm.at' hi), hs⟩
  have hF' : FewFlags (reachedEnv env l) l' F := ⟨fun p d e sh n hi => hF.flags p d e sh n (hm.at' hi), hF.few⟩
  have hD' : DefinedOnce (reachedEnv env l) l' := by
    refine ⟨by rw [hm.objects]; exact hD.files, fun n p d j s p' d' j' s' h1 a b h2 => ?_⟩
    obtain ⟨e1, i1, r1⟩ := h1
    obtain ⟨e2, i2, r2⟩ := h2
    exact hD.names n p d j s p' d' j' s' ⟨e1, hm.at' i1, r1⟩ a b ⟨e2, hm.at' i2, r2⟩
  have hx' : GlobalIndexes (reachedEnv env l) l' := ⟨by rw [hm.archives]; exact hx.global, by rw [hm.archives]; exact hx.distinct⟩
  obtain ⟨rounds, file', hok⟩ := C140_whole_partial hc hf hr' hn' hF' hv' S (fun n e he => hb n e (hm.input' he)) hR hD' hx' (by rw [hm.archives]; exact hnd) (by
    rintro n ⟨p, d, j, s, ⟨e, hi, hj, hsn, h3⟩, h0, hbind⟩
    rcases reached_provided hv hn (hm.clean hc) (hm.sound hf) hr hF (hm.whole S) hb hD hx hg hw hL h (reachedEnv_input (hm.at' hi))
      ⟨s, List.mem_of_getElem? hj, hsn, h3, h0, hbind⟩ with h | h | h | ⟨p, s, hpl, h⟩ | ⟨p, hp', h⟩
    · exact .inl h
    · refine .inr (.inr (.inl (.inr ?_)))
      obtain ⟨x, hx, h⟩ := h
      exact ⟨x, by rw [hm.loaded]; exact hx, h⟩
    · exact .inr (.inl (hm.globally.2 h))
    · exact .inr (.inr (.inr (.inl ⟨p, s, hm.mem hpl, h⟩)))
    · exact .inr (.inr (.inr (.inr ⟨p, by rw [hm.archives]; exact hp', h⟩))))
  exact ⟨rounds, file', fun fuel' hle => by rw [← C152_unasked hv' (hm.namesReached hn) hm.answers]; exact hok fuel' hle⟩

/-! ### A library with a function that was taken from an archive so far -/

def libsLinker : Linker := { duoLinker with options := { Options.default with sharedLibs := [(hLibPath, false)] } }

theorem libs_sound : SoundFiles duoEnv libsLinker := by
  have h := duo_sound
  refine ⟨h.loader, fun p d e sh hi => h.inside p d e sh ?_, fun p d e sh hi => h.unnamed p d e sh ?_, fun p d e s n hi => h.nameless p d e s n ?_,
    fun p d e k pos j rel hi => h.symbols p d e k pos j rel ?_, ?_, h.members⟩
  iterate 4
    cases hi with
    | object hp hd he ho => exact .object hp hd he ho
    | member hp hd ha hn hm he ho => exact .member hp hd ha hn hm he ho
  intro p hp
  have hp : p = hLibPath := by simpa [libsLinker] using hp
  subst hp
  refine ⟨by decide, fun d hd => ?_⟩
  have hd : some b!"library" = some d := by rw [← hd]; decide
  cases hd
  decide

theorem libs_readable : ReadableFiles duoEnv libsLinker := by
  have h := duo_readable
  refine ⟨h.objects, ?_, h.archives, fun p d e sh hi => h.sections p d e sh ?_, fun p d e s hi => h.symbols p d e s ?_,
    fun p d e k pos j rel hi => h.relocs p d e k pos j rel ?_⟩
  · intro p hp
    have hp : p = hLibPath := by simpa [libsLinker] using hp
    subst hp
    exact ⟨b!"library", hLibElf, by decide, rfl, by decide⟩
  iterate 3
    cases hi with
    | object hp hd he ho => exact .object hp hd he ho
    | member hp hd ha hn hm he ho => exact .member hp hd ha hn hm he ho

/-- `h` comes from the library now, and the archive with `h` is not used any more -/
example (sched : LinkSched) (hv : sched.Valid) : ∃ rounds file, ∀ fuel, rounds ≤ fuel → link duoEnv libsLinker sched fuel = some (.ok file) := by
  have hc : CleanFiles duoEnv duoLinker := CleanFiles.of_table (by decide +kernel)
  have h : links duoEnv duoLinker LinkSched.id 5 (fun _ _ _ _ => true) = true := by decide +kernel
  obtain ⟨log, loaded, w, w', f, s, h1, _⟩ := LinkRun.of_links LinkSched.id_valid hc h
  exact C156_archives (l := duoLinker) (F := [0, 6]) (V := 100) (K := 1) LinkSched.id_valid hv duo_names (by rw [duo_env]; exact CleanFiles.of_table (by decide +kernel))
    (by rw [duo_env]; exact libs_sound) (by rw [duo_env]; exact SoundRelocs.of_table (by decide +kernel) (by decide +kernel))
    (by rw [duo_env]; exact FewFlags.of_table (by decide +kernel) (by decide))
    (by rw [duo_env]; exact ⟨by decide +kernel, by decide +kernel, ⟨by decide, duo_small.definitions.2⟩, by decide +kernel⟩) (by rw [duo_env]; exact duo_binds)
    (by rw [duo_env]; exact libs_readable) (by rw [duo_env]; exact duo_once) (by rw [duo_env]; exact duo_indexes) (by decide) (by rw [duo_env]; exact duo_global)
    duo_whole (by rw [duo_env]; exact duo_linkerNames) ⟨⟨[hLibPath], .refl _⟩, rfl⟩ h1

end Linker
end Dld
