import Verif.Spec.CompleteAll
import Verif.Lemmas.LibMembers
import Verif.Props.CompleteLib
import Verif.Props.CompleteAr
/-! # Programs with archives and libraries: C98 and C140 with requirements on the contents of the files alone -/
namespace Dld
open Writer Spec StringTable
namespace Linker
variable {env : Env} {l : Linker} {sched : LinkSched} {fuel : Nat} {F : List Nat} {V K : Nat} {N : List Call → Name → Prop} {loaded : List Loaded} {log : List Call}
  {w : Writer}

/-- every file that was loaded is an input, and the inputs have at least as much of anything as the files that were loaded -/
theorem loaded_sum (h : Calls env l N loaded log) (hh : Hist l.options (opsOf log) w) (hn : NamesSmall env l) (hx : GlobalIndexes env l)
    (hb : ∀ n, PlainBinds env l n) : (∀ x ∈ loaded, ∃ y ∈ inputsOf env l, y.elf = x.elf) ∧
      ∀ f : ElfFile → Nat, (loaded.map fun x => f x.elf).sum ≤ ((inputsOf env l).map fun x => f x.elf).sum := by
  obtain ⟨ms, e, hms, hnd⟩ := Calls.members_once h hh hn hx hb
  refine ⟨?_, ?_⟩
  · intro x hxm
    rw [e] at hxm
    rcases List.mem_append.1 hxm with hm | hm
    · exact ⟨x, List.mem_append_left _ hm, rfl⟩
    · exact ⟨_, List.mem_append_right _ (asListed_mem (hms x hm)), asListed_elf x⟩
  · intro f
    rw [e]
    unfold inputsOf
    rw [List.map_append, List.map_append, List.sum_append, List.sum_append]
    refine Nat.add_le_add_left ?_ _
    haveI : DecidableEq Loaded := fun a b => Classical.propDecidable (a = b)
    have := sum_subset (fun x : Loaded => f x.elf) (membersOf env l) (ms.map asListed) hnd fun x hm => by
      obtain ⟨y, hy, rfl⟩ := List.mem_map.1 hm
      exact asListed_mem (hms y hy)
    rw [List.map_map] at this
    have e2 : (fun x : Loaded => f x.elf) ∘ asListed = fun x => f x.elf := by funext x; simp only [Function.comp, asListed_elf]
    rw [e2] at this
    exact this

theorem SmallWhole.fits (S : SmallWhole env l V K) (h : Calls env l N loaded log) (hh : Hist l.options (opsOf log) w) (hc : CleanFiles env l)
    (hn : NamesSmall env l) (ho : (libCalls log).Nodup) (hx : GlobalIndexes env l) (hb : ∀ n, PlainBinds env l n) : Spec.Fits l.options (opsOf log) V K := by
  obtain ⟨hin, hsum⟩ := loaded_sum h hh hn hx hb
  refine ⟨?_, ?_, h.attaches_le hh hc hn ⟨S.definitions.1, fun n => Nat.le_trans (hsum fun e => e.definitions n) (S.definitions.2 n)⟩, ?_⟩
  · intro s sec n path r hop
    obtain ⟨x, hxm, hs, _⟩ := h.sym hop
    obtain ⟨y, hy, he⟩ := hin x hxm
    exact S.values y hy s (by rw [he]; exact hs)
  · intro rel y sr path hop
    obtain ⟨c, hc, e'⟩ := List.mem_map.1 hop
    obtain ⟨x, k, pos, j, rel', s, sh, n, R⟩ := h.relocCall hc e'
    obtain ⟨z, hz, he⟩ := hin x R.file
    rw [R.rela]
    exact S.addends z hz _ (by rw [he]; exact R.used)
  · unfold reach
    have h1 := Nat.mul_le_mul_left (K + 5) (Nat.add_le_add_left (Nat.le_trans (h.cost_le ho) (Nat.add_le_add_right (hsum ElfFile.cost) _))
      (0x200000 + 1024 + baseCost l.options))
    have h2 := S.small
    omega

/-- a program of moderate size makes calls the linker can digest -/
theorem whole_digestible (hc : CleanFiles env l) (hf : SoundFiles env l) (hr : SoundRelocs env l) (hn : NamesSmall env l) (hF : FewFlags env l F)
    (hv : sched.Valid) (hx : GlobalIndexes env l) (hb : ∀ n, PlainBinds env l n) (S : SmallWhole env l V K) (h : gathered env l sched fuel = some (.ok w)) :
    ∃ loaded log, Calls env l (NeededIn env l) loaded log ∧ Hist l.options (opsOf log) w ∧ Digestible l.options (opsOf log) w F V K := by
  obtain ⟨loaded, log, h1, h2, h3⟩ := gathered_entries_any hv hn h
  exact ⟨loaded, log, h1, h2, h1.digestible h2 hc hf hr hn hF (SmallWhole.fits S h1 h2 hc hn h3 hx hb)⟩

theorem whole_no_panic (hc : CleanFiles env l) (hf : SoundFiles env l) (hr : SoundRelocs env l) (hn : NamesSmall env l) (hF : FewFlags env l F)
    (hv : sched.Valid) (hx : GlobalIndexes env l) (hb : ∀ n, PlainBinds env l n) (S : SmallWhole env l V K) : link env l sched fuel ≠ some (.error .panic) := by
  intro h
  rcases link_gathered h with ⟨e, hg, he⟩ | ⟨w, hg, hfin⟩
  · cases he
    exact gathered_sound hc hf hn hv hg rfl
  · obtain ⟨loaded, log, h1, h2, D⟩ := whole_digestible hc hf hr hn hF hv hx hb S hg
    exact finish_sound hv h2 D (h1.symstr_small h2 hn) hfin

theorem whole_tables (hc : CleanFiles env l) (hf : SoundFiles env l) (hr : SoundRelocs env l) (hn : NamesSmall env l) (hF : FewFlags env l F)
    (hv : sched.Valid) (hx : GlobalIndexes env l) (hb : ∀ n, PlainBinds env l n) (S : SmallWhole env l V K) : TablesFit env l sched fuel := by
  intro w w' hg hcomp
  obtain ⟨loaded, log, h1, h2, D⟩ := whole_digestible hc hf hr hn hF hv hx hb S hg
  obtain ⟨a, b, _, _, c⟩ := D.toWellFormed.names h2
  refine ⟨a, b, ?_⟩
  obtain ⟨st, rfl⟩ := computeSections_stages hcomp
  obtain ⟨_, _, hL⟩ := st.laid hv.toSched h2.secFacts h2.untouched D.good.flags
  rw [hL.secs]; omega

/-- **C98 for objects, archives and libraries.** Linking well-formed files of moderate size ends; it writes an output of which all other properties of links
hold, or it reports an error. All hypotheses are about the contents of the files. -/
theorem C98_whole (hc : CleanFiles env l) (hf : SoundFiles env l) (hr : SoundRelocs env l) (hn : NamesSmall env l) (hF : FewFlags env l F)
    (hN : FieldNumbers env l) (hv : sched.Valid) (hx : GlobalIndexes env l) (hb : ∀ n, PlainBinds env l n) (S : SmallWhole env l V K) :
    ∃ rounds res, (∀ fuel, rounds ≤ fuel → link env l sched fuel = some res) ∧
      ((∃ file loaded log w w' secs, res = .ok file ∧ LinkRun env l sched loaded log w w' file secs) ∨ ∃ p k, res = .error (.err p k)) := by
  obtain ⟨rounds, res, hres⟩ := C60_terminates hx.truthful hv
  refine ⟨rounds, res, hres, ?_⟩
  have h := hres rounds (Nat.le_refl _)
  cases res with
  | error f =>
    cases f with
    | err p k => exact .inr ⟨p, k, rfl⟩
    | panic => exact absurd h (whole_no_panic hc hf hr hn hF hv hx hb S)
  | ok file =>
    obtain ⟨_, _, w, w', secs, hg, _, h2, h3⟩ := link_ok hv h
    obtain ⟨loaded, log, h4, hh, D⟩ := whole_digestible hc hf hr hn hF hv hx hb S hg
    have h2 : Run l.options (opsOf log) sched.toSched w w' file secs := ⟨hh, h2.valid, h2.compute, h2.write⟩
    refine .inl ⟨file, loaded, log, w, w', secs, rfl, h4, h2.goodLink D.toWellFormed ⟨?_, ?_, ?_⟩ (h4.namesClean hc), h3⟩
    · intro n sh d r hop
      obtain ⟨x, hx, hcp, _⟩ := h4.copies hop
      exact hN.sections _ _ _ _ (h4.inputAt hx) hcp.1
    · intro s sec n path r hop
      obtain ⟨x, hx, hsy, _⟩ := h4.sym hop
      exact hN.symbols _ _ _ _ (h4.inputAt hx) hsy
    · intro s n path r hop
      exact hN.dynsyms _ _ _ (h4.dynsym hop).1

/-- **C140 for objects, archives and libraries.** All hypotheses are about the contents of the files. -/
theorem C140_whole_partial (hc : CleanFiles env l) (hf : SoundFiles env l) (hr : SoundRelocs env l) (hn : NamesSmall env l) (hF : FewFlags env l F)
    (hv : sched.Valid) (S : SmallWhole env l V K) (hb : ∀ n, PlainBinds env l n) (hR : ReadableFiles env l) (hD : DefinedOnce env l) (hx : GlobalIndexes env l)
    (hnd : l.archives.Nodup)
    (hN : ∀ n, AnyNeeds env l n → n = b!"_GLOBAL_OFFSET_TABLE_" ∨ DefinedGlobally env l n ∨ InSection env l n ∨ InLibrary env l n ∨ InIndex env l n) :
    ∃ rounds file, ∀ fuel, rounds ≤ fuel → link env l sched fuel = some (.ok file) :=
  complete_any hc hn hv hR hD hx hnd hN (fun _ => whole_no_panic hc hf hr hn hF hv hx hb S) fun _ => whole_tables hc hf hr hn hF hv hx hb S

/-- without libraries -/
theorem SmallWhole.of_inputs (hs : l.options.sharedLibs = []) (S : SmallInputs env l V K) : SmallWhole env l V K :=
  ⟨S.values, S.addends, S.definitions, by rw [hs]; exact S.small⟩

/-! ### An object that needs a function of a library and one of an archive -/

def demoAr : ArFile := { index := [(b!"g", b!"g.o")], get := AMap.get? [(b!"g.o", List.replicate 8 0xc3)] }

theorem demo_member {p : Path} {data : Bytes} {ar : ArFile} {n : Name} {m d : Bytes} (hp : p ∈ demoLinker.archives) (hd : demoEnv.read p = some data)
    (ha : demoEnv.parseAr data = some ar) (hn : ar.memberOfSymbol n = some m) (hm : ar.get m = some d) :
    p = arPath ∧ ar = demoAr ∧ n = b!"g" ∧ m = b!"g.o" ∧ d = List.replicate 8 0xc3 := by
  cases List.mem_singleton.1 hp
  have hd' : demoEnv.read arPath = some b!"archive" := by decide +kernel
  rw [hd'] at hd; cases hd
  have ha' : demoEnv.parseAr b!"archive" = some demoAr := rfl
  rw [ha'] at ha; cases ha
  have := AMap.mem_of_get? hn
  simp only [demoAr, List.mem_cons, List.not_mem_nil, or_false, Prod.mk.injEq] at this
  obtain ⟨rfl, rfl⟩ := this
  have hm' : demoAr.get b!"g.o" = some (List.replicate 8 0xc3) := by decide +kernel
  rw [hm'] at hm; cases hm
  exact ⟨rfl, rfl, rfl, rfl, rfl⟩

theorem demo_input {p : Path} {d : Bytes} {e : ElfFile} (h : InputAt demoEnv demoLinker p d e) :
    (p = mainPath ∧ d = List.replicate 16 0x90 ∧ e = mainElf) ∨ (p = arPath ∧ d = List.replicate 8 0xc3 ∧ e = memberElf) := by
  cases h with
  | object hp hd he =>
    cases List.mem_singleton.1 hp
    have hd' : demoEnv.read mainPath = some (List.replicate 16 0x90) := by decide +kernel
    rw [hd'] at hd; cases hd
    have he' : demoEnv.parseElf (List.replicate 16 0x90) = some mainElf := rfl
    rw [he'] at he; cases he
    exact .inl ⟨rfl, rfl, rfl⟩
  | member hp hd ha hn hm he =>
    obtain ⟨rfl, _, _, _, rfl⟩ := demo_member hp hd ha hn hm
    have he' : demoEnv.parseElf (List.replicate 8 0xc3) = some memberElf := rfl
    rw [he'] at he; cases he
    exact .inr ⟨rfl, rfl, rfl⟩

/-- the symbols of the two files -/
def demoSyms : List ((Path × Bytes × Nat) × Sym × Name) :=
  [(mainPath, List.replicate 16 0x90, mainElf), (arPath, List.replicate 8 0xc3, memberElf)].flatMap fun x =>
    x.2.2.syms.zipIdx.filterMap fun y => (x.2.2.symName y.1.st_name).map fun n => ((x.1, x.2.1, y.2), y.1, n)

theorem demo_sym {p : Path} {d : Bytes} {j : Nat} {s : Sym} {n : Name} (h : InputSym demoEnv demoLinker p d j s n) : ((p, d, j), s, n) ∈ demoSyms := by
  obtain ⟨e, hi, hj, hn, _⟩ := h
  refine List.mem_flatMap.2 ⟨(p, d, e), ?_, List.mem_filterMap.2 ⟨(s, j), List.mem_zipIdx_iff_getElem?.2 hj, by simp only [hn]; rfl⟩⟩
  rcases demo_input hi with ⟨rfl, rfl, rfl⟩ | ⟨rfl, rfl, rfl⟩ <;> simp

theorem demo_readable : ReadableFiles demoEnv demoLinker := by
  have hall : ∀ p d e, InputAt demoEnv demoLinker p d e → readableElf e = true := by
    intro p d e hi
    rcases demo_input hi with ⟨_, _, rfl⟩ | ⟨_, _, rfl⟩ <;> decide +kernel
  refine ⟨?_, ?_, ?_, ?_, ?_, ?_⟩
  · intro p hp
    cases List.mem_singleton.1 hp
    exact ⟨List.replicate 16 0x90, mainElf, by decide +kernel, rfl⟩
  · intro p hp
    have hp : p = libPath := by simpa [demoLinker] using hp
    subst hp
    exact ⟨b!"library", libElf, by decide, rfl, by decide⟩
  · intro p hp
    cases List.mem_singleton.1 hp
    have hr : demoEnv.read arPath = some b!"archive" := by decide +kernel
    refine ⟨b!"archive", demoAr, hr, rfl, fun n m b hn hm => ?_⟩
    obtain ⟨_, _, _, _, rfl⟩ := demo_member hp hr rfl hn hm
    rfl
  · intro p d e sh hi hsh _
    have := hall p d e hi
    simp only [readableElf, Bool.and_eq_true, List.all_eq_true] at this
    exact this.1.1 sh hsh
  · intro p d e s hi hs
    have := hall p d e hi
    simp only [readableElf, Bool.and_eq_true, List.all_eq_true] at this
    exact this.1.2 s hs
  · intro p d e k pos j rel hi hr
    have := hall p d e hi
    simp only [readableElf, Bool.and_eq_true, List.all_eq_true] at this
    simpa using this.2 _ hr

theorem demo_once : DefinedOnce demoEnv demoLinker := by
  refine ⟨by decide, ?_⟩
  intro n p d j s p' d' j' s' h1 a1 a2 h2 a4
  have := (by decide +kernel : ∀ x ∈ demoSyms, ∀ y ∈ demoSyms, x.2.2 = y.2.2 → x.2.1.st_info / 16 = 1 → x.2.1.st_shndx ≠ 0 → y.2.1.st_shndx ≠ 0 → y.1 = x.1)
    _ (demo_sym h1) _ (demo_sym h2) rfl a1 a2 a4
  simpa using this

theorem demo_indexes : GlobalIndexes demoEnv demoLinker := by
  refine ⟨?_, ?_⟩
  · intro p hp data ar hd ha n m d hn hm
    obtain ⟨_, _, rfl, _, rfl⟩ := demo_member hp hd ha hn hm
    exact ⟨memberElf, rfl, rfl, { demoSym STT_FUNC 1 0 8 with st_name := 1 }, by decide, by decide, by decide, by decide, by decide⟩
  · intro p hp data ar hd ha n m n' m' d hn hn' hm hm'
    obtain ⟨_, _, _, rfl, _⟩ := demo_member hp hd ha hn hm
    obtain ⟨_, _, _, rfl, _⟩ := demo_member hp hd ha hn' hm'
    rfl

theorem demo_small : SmallWhole demoEnv demoLinker 100 1 := by
  refine ⟨by decide +kernel, by decide +kernel, ⟨by decide, fun n => ?_⟩, by decide +kernel⟩
  exact trio_small.definitions.2 n

theorem demo_names : NamesSmall demoEnv demoLinker := NamesSmall.of_table (by decide +kernel)
theorem demo_flags : FewFlags demoEnv demoLinker [0, 6] := FewFlags.of_table (by decide +kernel) (by decide)

theorem demo_plainBinds (n : Name) : PlainBinds demoEnv demoLinker n := by
  intro e he s hs _
  exact (by decide +kernel : ∀ e ∈ [mainElf, libElf, memberElf], ∀ s ∈ e.syms, s.st_info / 16 ≤ 2) e he.of_table s hs

/-- the program links, in every order in which the hash tables are visited -/
theorem demo_complete (hv : sched.Valid) : ∃ rounds file, ∀ fuel, rounds ≤ fuel → link demoEnv demoLinker sched fuel = some (.ok file) := by
  refine C140_whole_partial demo_files demo_sound demo_relocs demo_names demo_flags hv demo_small demo_plainBinds demo_readable demo_once demo_indexes (by decide) ?_
  rintro n ⟨p, d, j, s, h, h0, hb⟩
  have := (by decide +kernel : ∀ x ∈ demoSyms, x.2.1.st_shndx = 0 → (x.2.1.st_info / 16 = 1 ∨ x.2.1.st_info / 16 = 2) → x.2.2 = b!"f" ∨ x.2.2 = b!"g")
    _ (demo_sym h) h0 hb
  rcases this with rfl | rfl
  · exact .inr (.inr (.inr (.inl ⟨libPath, { demoSym STT_FUNC 5 0x1000 4 with st_name := 1 }, by decide, b!"library", libElf, by decide, rfl, by decide, by decide⟩)))
  · exact .inr (.inr (.inr (.inr ⟨arPath, by decide, b!"archive", demoAr, b!"g.o", by decide +kernel, rfl, by decide⟩)))

example (hv : sched.Valid) : ∃ rounds file, ∀ fuel, rounds ≤ fuel → link demoEnv demoLinker sched fuel = some (.ok file) := demo_complete hv

example (hv : sched.Valid) : ∃ rounds res, (∀ fuel, rounds ≤ fuel → link demoEnv demoLinker sched fuel = some res) ∧
    ((∃ file loaded log w w' secs, res = .ok file ∧ LinkRun demoEnv demoLinker sched loaded log w w' file secs) ∨ ∃ p k, res = .error (.err p k)) :=
  C98_whole demo_files demo_sound demo_relocs demo_names demo_flags (FieldNumbers.of_table (by decide +kernel)) hv demo_indexes demo_plainBinds demo_small

end Linker
end Dld
