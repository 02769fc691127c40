import Verif.Spec.Machine
import Verif.Props.Complete
import Verif.Props.Marked
/-! # C144: object files for other machines -/
namespace Dld
open Writer Spec StringTable SymbolTable

/-- what the class, byte order and machine are in terms of the header -/
theorem machineOf_header {file : Bytes} {c d : Nat} (hc : (decodeEhdr file).ident[4]? = some (UInt8.ofNat c)) (hd : (decodeEhdr file).ident[5]? = some (UInt8.ofNat d))
    (hcl : c < 256) (hdl : d < 256) : machineOf file = (c, d, (decodeEhdr file).machine) := by
  have key : ∀ k v, (decodeEhdr file).ident[k]? = some (UInt8.ofNat v) → v < 256 → field file k 1 = v := by
    intro k v h hv
    simp only [decodeEhdr, slice, List.drop_zero, List.getElem?_take] at h
    split at h
    · unfold field slice
      have : (file.drop k).take 1 = [UInt8.ofNat v] := by
        rw [List.take_one, List.head?_drop, h]; rfl
      rw [this]
      simp [fromLe, Nat.mod_eq_of_lt hv]
    · cases h
  unfold machineOf
  rw [key 4 c hc hcl, key 5 d hd hdl]
  rfl

/-- **C144, the part that holds.** Every executable says in its header that it is for x86-64, 64 bit: if the inputs are, so is the output. Missing: inputs for
other machines are not rejected (`C144_machine_violated`). -/
theorem C144_machine_partial {env : Env} {l : Linker} {sched : LinkSched} {loaded : List Loaded} {log : List Call} {w w' : Writer} {file : Bytes} {secs : List Section}
    (R : LinkRun env l sched loaded log w w' file secs) : machineOf file = x8664 := by
  have G := R.good.toGoodRun
  have h := (G.run.reads G.good G.names G.fit).ehdr
  rw [machineOf_header (c := 2) (d := 1) (by rw [h]; rfl) (by rw [h]; rfl) (by decide) (by decide), h]
  rfl

namespace Linker
variable {env : Env} {l : Linker} {sched : LinkSched} {F : List Nat} {V K : Nat}

/-- **C144** is violated by every set of objects that would link otherwise: if the requirements of C140 are met, it does not matter what machine an object is for.
The link succeeds, and the executable, which says that it is for x86-64, has the sections of the object for another machine in it. -/
theorem C144_machine_violated (hc : CleanFiles env l) (hf : SoundFiles env l) (hr : SoundRelocs env l) (hn : NamesSmall env l) (hF : FewFlags env l F)
    (hN : FieldNumbers env l) (hv : sched.Valid) (ha : l.archives = []) (hs : l.options.sharedLibs = []) (S : SmallObjects env l V K) (hR : ReadableFiles env l)
    (hD : DefinedOnce env l) (hd : ∀ n, Needs env l n → n = b!"_GLOBAL_OFFSET_TABLE_" ∨ DefinedGlobally env l n ∨ InSection env l n)
    {x : Loaded} (hx : x ∈ objectsOf env l) (_ : machineOf x.data ≠ x8664) :
    ∃ rounds file, (∀ fuel, rounds ≤ fuel → link env l sched fuel = some (.ok file)) ∧ machineOf file = x8664 ∧
      ∀ i sh n, SectionOf x i sh n → sh.sh_type ≠ 8 → ∃ p, CopiedTo file n p x i sh := by
  obtain ⟨r1, file, h1⟩ := C140_objects_partial hc hf hr hn hF hv ha hs S hR hD hd
  obtain ⟨r2, res, h2, h3⟩ := C98_objects hc hf hr hn hF hN hv ha hs S
  have e : some res = some (.ok file) := (h2 (r1 + r2) (by omega)).symm.trans (h1 (r1 + r2) (by omega))
  rcases h3 with ⟨file', log, w, w', secs, h4, R⟩ | ⟨p, k, h4⟩
  · rw [h4] at e
    cases e
    refine ⟨r1, file, h1, C144_machine_partial R, fun i sh n S h8 => ?_⟩
    obtain ⟨pre, post, he⟩ := List.append_of_mem hx
    exact ⟨_, R.copiedTo hc he S h8⟩
  · rw [h4] at e
    cases e

/-! ### A concrete link -/

/-- the start of the header of an object for AArch64, and 4 bytes of code -/
def armBytes : Bytes := [0x7f, 0x45, 0x4c, 0x46, 2, 1, 1, 0, 0, 0, 0, 0, 0, 0, 0, 0, 1, 0, 183, 0, 0xc0, 0x03, 0x5f, 0xd6]

def armElf : ElfFile where
  isObjectFile := true
  sectionHeaders := [{}, { demoSh SHT_PROGBITS 6 4 4 with sh_name := 1, sh_offset := 20 }]
  secName := AMap.get? [(0, []), (1, b!".text")]
  syms := [{}, { demoSym STT_FUNC 1 0 4 with st_name := 1 }]
  symName := AMap.get? [(0, []), (1, b!"_start")]
  shdrRelocs := []
  dynsyms := []
  dynName := fun _ => none

def armFiles : List (Path × Bytes) := [(mainPath, armBytes)]
def armElfs : List (Bytes × ElfFile) := [(armBytes, armElf)]
def armEnv : Env := tableEnv armFiles armElfs []
def armLinker : Linker := { options := Options.default, objects := [mainPath], archives := [] }

/-- an object for AArch64 is linked to an executable for x86-64 that has the code in it -/
example (sched : LinkSched) (hv : sched.Valid) : ∃ rounds file, (∀ fuel, rounds ≤ fuel → link armEnv armLinker sched fuel = some (.ok file)) ∧
    machineOf file = x8664 ∧ ∃ p, CopiedTo file b!".text" p ⟨.object 0, mainPath, armBytes, armElf⟩ 1 { demoSh SHT_PROGBITS 6 4 4 with sh_name := 1, sh_offset := 20 } := by
  have hs : SoundFiles armEnv armLinker := by
    refine SoundFiles.of_table (by decide +kernel) (by decide) ?_ ?_
    · intro p hp; cases hp
    · intro p hp; cases hp
  have hS : SmallObjects armEnv armLinker 100 1 := by
    refine ⟨by decide +kernel, by decide +kernel, ⟨by decide, ?_⟩, by decide +kernel⟩
    intro n
    have : (objectsOf armEnv armLinker).map (fun x => x.elf.definitions n) = [armElf.definitions n] := rfl
    rw [this]
    have h1 : armElf.definitions n = if b!"_start" = n then 1 else 0 := by
      simp only [ElfFile.definitions, armElf, demoSym, STT_FUNC, List.filter, AMap.get?]
      by_cases h : b!"_start" = n <;> simp_all
    rw [h1]
    split <;> decide
  obtain ⟨r, file, h1, h2, h3⟩ := C144_machine_violated (sched := sched) (CleanFiles.of_table (by decide +kernel)) hs
    (SoundRelocs.of_table (by decide +kernel) (by decide +kernel)) (NamesSmall.of_table (by decide +kernel)) (F := [0, 6]) (FewFlags.of_table (by decide +kernel) (by decide))
    (FieldNumbers.of_table (by decide +kernel)) hv rfl rfl hS
    (ReadableFiles.of_table rfl rfl (by decide +kernel) (by decide +kernel)) (DefinedOnce.of_table rfl (by decide) (by decide +kernel))
    (fun n hn => by
      obtain ⟨s, hs, h0, hb⟩ := hn
      exact ((by decide +kernel : ∀ x ∈ (tableSyms armFiles armElfs [mainPath]).map (·.2), ¬ (x.1.st_shndx = 0 ∧ (x.1.st_info / 16 = 1 ∨ x.1.st_info / 16 = 2)))
        _ (Mentioned.of_table (files := armFiles) (elfs := armElfs) hs) ⟨h0, hb⟩).elim)
    (x := ⟨.object 0, mainPath, armBytes, armElf⟩) (.head _) (by decide)
  exact ⟨r, file, h1, h2, h3 1 _ _ ⟨rfl, by decide, rfl, by decide⟩ (by decide)⟩

end Linker
end Dld
