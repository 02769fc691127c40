import Verif.Lemmas.Reloc
import Verif.Spec.Reloc
import Verif.Spec.X86
import Verif.Model.Writer
/-! # C29-C35, C77, C78: applying relocations -/
namespace Dld
open Spec

/-- the psABI quantities of a relocation at `rel.r_offset` in a chunk at address `ca`; PLT entries are
16 bytes and entry 0 is the header -/
def relEnv (ca : Nat) (rel : Rela) (symbol : Symbol) (S got plt : Nat) : RelEnv :=
  { S := S, A := rel.r_addend, P := (ca + rel.r_offset : Nat), GOT := got
    G := symbol.inGot.map fun g : Nat => (g : Int)
    L := symbol.inPlt.map fun i : Nat => ((plt + 16 * (i + 1) : Nat) : Int) }

/-- a field of what was written -/
theorem field_writeAt {buf v out : Bytes} {off : Nat} (h : writeAt buf off v = .ok out) {i k : Nat}
    (hi : i + k ≤ v.length) : field out (off + i) k = field v i k := by
  obtain ⟨h1, rfl⟩ := writeAt_ok.1 h
  have h2 : (buf.take off).length = off := by simp; omega
  unfold field
  rw [slice_append_left (by simp; omega), slice_append_right (by omega)]
  congr 2; omega

theorem sfield_writeAt {buf v out : Bytes} {off : Nat} (h : writeAt buf off v = .ok out) {i k : Nat}
    (hi : i + k ≤ v.length) : sfield out (off + i) k = sfield v i k := by
  unfold sfield; rw [field_writeAt h hi]

theorem sfield_write {buf out : Bytes} {off w : Nat} {v : Int} (hw : 0 < w)
    (h : writeAt buf off (leInt w v) = .ok out) (hv : fitsSigned w v) : sfield out off w = v := by
  have := sfield_writeAt (i := 0) (k := w) h (by simp)
  rw [Nat.add_zero] at this
  rw [this, ← List.append_nil (leInt w v)]
  exact sfield_head hw [] hv.1 hv.2

theorem fits4 {v : Int} (h : -2147483648 ≤ v ∧ v < 2147483648) : fitsSigned 4 v := by
  unfold fitsSigned; omega

theorem fits8 {v : Int} (h : -9223372036854775808 ≤ v ∧ v < 9223372036854775808) : fitsSigned 8 v := by
  unfold fitsSigned; omega

/-- the types whose fields C29 speaks about: 64, PC32, PLT32, 32, 32S, TLSGD, GOTTPOFF, GOTPCRELX,
REX_GOTPCRELX -/
def fieldTypes : List Nat := [1, 2, 4, 10, 11, 19, 22, 41, 42]

/-- for these types the plan is to store the psABI value -/
theorem planOf_psabi {ca : Nat} {rel : Rela} {symbol : Symbol} {S got plt : Nat} {plan : Plan}
    (hty : r_type rel.r_info ∈ fieldTypes)
    (hrelax : r_type rel.r_info = 41 ∨ r_type rel.r_info = 42 → symbol.dynamic ≠ none)
    (h : planOf symbol (r_type rel.r_info) S rel.r_addend (ca + rel.r_offset : Nat) got plt = some plan) :
    ∃ w v, plan = .plain w v ∧ 0 < w ∧
      psabi (relEnv ca rel symbol S got plt) (r_type rel.r_info) = some (w, v) := by
  generalize r_type rel.r_info = ty at *
  simp only [fieldTypes, List.mem_cons, List.not_mem_nil, or_false] at hty
  rcases hty with rfl | rfl | rfl | rfl | rfl | rfl | rfl | rfl | rfl
  · cases h; exact ⟨8, _, rfl, by decide, rfl⟩
  · cases h; exact ⟨4, _, rfl, by decide, rfl⟩
  · change symbol.inPlt.map _ = some plan at h
    simp only [Option.map_eq_some_iff] at h
    obtain ⟨i, hi, rfl⟩ := h
    exact ⟨4, _, rfl, by decide, by simp [psabi, relEnv, hi, Nat.add_comm]⟩
  · cases h; exact ⟨4, _, rfl, by decide, rfl⟩
  · cases h; exact ⟨4, _, rfl, by decide, rfl⟩
  · change (if symbol.isTls = true then symbol.inGot.map _ else none) = some plan at h
    split at h
    · simp only [Option.map_eq_some_iff] at h
      obtain ⟨i, hi, rfl⟩ := h
      exact ⟨4, _, rfl, by decide, by simp [psabi, relEnv, hi]⟩
    · cases h
  · change (if symbol.isTls = true then symbol.inGot.map _ else none) = some plan at h
    split at h
    · simp only [Option.map_eq_some_iff] at h
      obtain ⟨i, hi, rfl⟩ := h
      exact ⟨4, _, rfl, by decide, by simp [psabi, relEnv, hi]⟩
    · cases h
  · change (if symbol.dynamic = none then _ else symbol.inGot.map _) = some plan at h
    rw [if_neg (hrelax (.inl rfl))] at h
    simp only [Option.map_eq_some_iff] at h
    obtain ⟨i, hi, rfl⟩ := h
    exact ⟨4, _, rfl, by decide, by simp [psabi, relEnv, hi]⟩
  · change (if symbol.dynamic = none then _ else symbol.inGot.map _) = some plan at h
    rw [if_neg (hrelax (.inr rfl))] at h
    simp only [Option.map_eq_some_iff] at h
    obtain ⟨i, hi, rfl⟩ := h
    exact ⟨4, _, rfl, by decide, by simp [psabi, relEnv, hi]⟩

/-- **C29.** A successfully applied relocation of the types 64, 32, 32S, PC32, PLT32, TLSGD, GOTTPOFF
and the unrelaxed GOTPCRELX and REX_GOTPCRELX leaves at its offset the value the psABI prescribes,
read as a signed little-endian field. (For 32S the value has to fit, see C31; relaxed forms are C32
and C33.) -/
theorem C29_psabi_value {ca : Nat} {data out : Bytes} {rel : Rela} {symbol : Symbol} {dt : SymbolTable}
    {got plt : Nat} (h : applyRelocation ca data rel symbol dt got plt = .ok out)
    (hty : r_type rel.r_info ∈ fieldTypes)
    (hrelax : r_type rel.r_info = 41 ∨ r_type rel.r_info = 42 → symbol.dynamic ≠ none) :
    ∃ S w v, symAddr symbol dt = some S ∧
      psabi (relEnv ca rel symbol S got plt) (r_type rel.r_info) = some (w, v) ∧
      rel.r_offset + w ≤ data.length ∧
      ((r_type rel.r_info = 11 → fitsSigned 4 v) → sfield out rel.r_offset w = v) := by
  rw [applyRelocation_eq, bind_ok] at h
  obtain ⟨plan, hpl, hap⟩ := h
  obtain ⟨S, hS, hpo, hr⟩ := relocPlan_ok hpl
  obtain ⟨w, v, rfl, hw, hps⟩ := planOf_psabi hty hrelax hpo
  refine ⟨S, w, v, hS, hps, ?_, fun h32 => sfield_write hw hap ?_⟩
  · simpa using (writeAt_ok.1 hap).1
  · by_cases h8 : w = 8
    · subst h8; exact fits8 (hr.1 rfl)
    · obtain ⟨rfl, h4⟩ := hr.2 h8
      by_cases h11 : r_type rel.r_info = 11
      · exact h32 h11
      · exact fits4 (h4 h11)

/-- **C29, the other direction.** When the addresses are below 2^60, the symbol has an address, the
psABI value exists and fits, and the field lies inside the data, the relocation is applied. -/
theorem C29_in_range_applies {ca : Nat} {data : Bytes} {rel : Rela} {symbol : Symbol} {dt : SymbolTable}
    {got plt S w : Nat} {v : Int} (hS : symAddr symbol dt = some S)
    (hty : r_type rel.r_info ∈ fieldTypes)
    (hrelax : r_type rel.r_info = 41 ∨ r_type rel.r_info = 42 → symbol.dynamic ≠ none)
    (htls : r_type rel.r_info = 19 ∨ r_type rel.r_info = 22 → symbol.isTls = true)
    (hps : psabi (relEnv ca rel symbol S got plt) (r_type rel.r_info) = some (w, v))
    (hfit : fitsSigned w v) (hin : rel.r_offset + w ≤ data.length)
    (hsmall : Small S rel.r_addend (ca + rel.r_offset) got plt symbol) :
    ∃ out, applyRelocation ca data rel symbol dt got plt = .ok out := by
  have key : ∃ plan, planOf symbol (r_type rel.r_info) S rel.r_addend (ca + rel.r_offset : Nat) got plt = some plan := by
    revert hty hrelax htls hps
    generalize r_type rel.r_info = ty
    intro hty hrelax htls hps
    have hG : ∀ {x : Int → Nat × Int}, ((symbol.inGot.map fun g : Nat => (g : Int)).map x) = some (w, v) →
        ∃ g, symbol.inGot = some g := by
      intro x hx; cases hg : symbol.inGot with
      | none => simp [hg] at hx
      | some g => exact ⟨g, rfl⟩
    simp only [fieldTypes, List.mem_cons, List.not_mem_nil, or_false] at hty
    rcases hty with rfl | rfl | rfl | rfl | rfl | rfl | rfl | rfl | rfl
    · exact ⟨_, rfl⟩
    · exact ⟨_, rfl⟩
    · simp only [psabi, relEnv, Option.map_map, Option.map_eq_some_iff] at hps
      obtain ⟨i, hi, -⟩ := hps
      exact ⟨.plain 4 ((plt + 16 * (1 + i) : Nat) + rel.r_addend - (ca + rel.r_offset : Nat)),
        show symbol.inPlt.map _ = _ by simp [hi]⟩
    · exact ⟨_, rfl⟩
    · exact ⟨_, rfl⟩
    · obtain ⟨g, hg⟩ := hG (x := fun g => (4, g + got + rel.r_addend - (ca + rel.r_offset : Nat))) hps
      exact ⟨.plain 4 (g + got + rel.r_addend - (ca + rel.r_offset : Nat)),
        show (if symbol.isTls = true then symbol.inGot.map _ else none) = _ by simp [hg, htls (.inl rfl)]⟩
    · obtain ⟨g, hg⟩ := hG (x := fun g => (4, g + got + rel.r_addend - (ca + rel.r_offset : Nat))) hps
      exact ⟨.plain 4 (g + got + rel.r_addend - (ca + rel.r_offset : Nat)),
        show (if symbol.isTls = true then symbol.inGot.map _ else none) = _ by simp [hg, htls (.inr rfl)]⟩
    · obtain ⟨g, hg⟩ := hG (x := fun g => (4, g + got + rel.r_addend - (ca + rel.r_offset : Nat))) hps
      exact ⟨.plain 4 (g + got + rel.r_addend - (ca + rel.r_offset : Nat)),
        show (if symbol.dynamic = none then _ else symbol.inGot.map _) = _ by simp [hg, hrelax (.inl rfl)]⟩
    · obtain ⟨g, hg⟩ := hG (x := fun g => (4, g + got + rel.r_addend - (ca + rel.r_offset : Nat))) hps
      exact ⟨.plain 4 (g + got + rel.r_addend - (ca + rel.r_offset : Nat)),
        show (if symbol.dynamic = none then _ else symbol.inGot.map _) = _ by simp [hg, hrelax (.inr rfl)]⟩
  obtain ⟨plan, hpo⟩ := key
  obtain ⟨w', v', rfl, -, hps'⟩ := planOf_psabi hty hrelax hpo
  rw [hps] at hps'
  cases hps'
  have hw : w = 8 ∨ w = 4 := by
    revert hps hty
    generalize r_type rel.r_info = ty
    intro hty hps
    have hmap : ∀ {o : Option Int} {x : Int → Int}, o.map (fun g => (4, x g)) = some (w, v) → w = 4 := by
      intro o x h; cases o <;> simp at h; exact h.1.symm
    simp only [fieldTypes, List.mem_cons, List.not_mem_nil, or_false] at hty
    rcases hty with rfl | rfl | rfl | rfl | rfl | rfl | rfl | rfl | rfl
    · cases hps; exact .inl rfl
    · cases hps; exact .inr rfl
    · exact .inr (hmap hps)
    · cases hps; exact .inr rfl
    · cases hps; exact .inr rfl
    · exact .inr (hmap hps)
    · exact .inr (hmap hps)
    · exact .inr (hmap hps)
    · exact .inr (hmap hps)
  have hr : (Plan.plain w v).InRange (r_type rel.r_info) := by
    unfold fitsSigned at hfit
    refine ⟨?_, ?_⟩
    · rintro rfl; omega
    · intro h8
      rcases hw with h | rfl
      · exact absurd h h8
      · exact ⟨rfl, fun _ => by omega⟩
  refine ⟨data.take rel.r_offset ++ leInt w v ++ data.drop (rel.r_offset + (leInt w v).length), ?_⟩
  rw [applyRelocation_eq, bind_ok]
  exact ⟨_, relocPlan_complete hS hsmall hpo hr, writeAt_ok.2 ⟨by simpa using hin, rfl⟩⟩

/-- **C30.** Applying a relocation keeps the length of the data and every byte outside the patched
region: the field itself, extended by the two or three instruction bytes before it for a relaxation. -/
theorem C30_only_own_field {ca : Nat} {data out : Bytes} {rel : Rela} {symbol : Symbol} {dt : SymbolTable}
    {got plt : Nat} (h : applyRelocation ca data rel symbol dt got plt = .ok out) :
    out.length = data.length ∧
      ∀ i, i < (patchRegion rel symbol).1 ∨ (patchRegion rel symbol).1 + (patchRegion rel symbol).2 ≤ i →
        out[i]? = data[i]? := by
  rw [applyRelocation_patch, bind_ok] at h
  obtain ⟨⟨st, bs⟩, hp, hw⟩ := h
  rw [relocPatch_region hp]
  refine ⟨length_writeAt hw, fun i hi => ?_⟩
  rw [getElem?_writeAt hw, if_neg (by simp only at hi ⊢; omega)]

/-! Concrete relocations meeting the hypotheses. -/

/-- a symbol at `value` -/
def exSym (value : Nat) : Symbol :=
  { sym := { st_name := 1, st_info := 0x12, st_other := 0, st_shndx := 3, st_value := value, st_size := 0 }
    hash := 0, gnuHash := 0, reference := ⟨[], none⟩ }

def exDt : SymbolTable := { symbols := [], sectionSyms := [], numLocals := 0, isDynamic := true }

/-- a PC32 relocation with addend -4 at offset 1 of a `call` at 0x1000 to 0x2000 -/
example : applyRelocation 0x1000 [0xe8, 0, 0, 0, 0, 0xc3] ⟨1, 2, -4⟩ (exSym 0x2000) exDt 0 0
    = .ok [0xe8, 0xfb, 0x0f, 0, 0, 0xc3] := by decide

/-- a PLT32 relocation through PLT slot 2 and a GOTPCRELX one through GOT offset 8 -/
example : applyRelocation 0x1000 [0xe8, 0, 0, 0, 0, 0xc3] ⟨1, 4, -4⟩
      { exSym 0 with inPlt := some 2, dynamic := some (.named 5) } exDt 0 0x3000
    = .ok [0xe8, 0x2b, 0x20, 0, 0, 0xc3] := by decide

example : applyRelocation 0x1000 [0xff, 0x15, 0, 0, 0, 0] ⟨2, 41, -4⟩
      { exSym 0 with inGot := some 8, dynamic := some (.named 5) } exDt 0x4000 0
    = .ok [0xff, 0x15, 0x02, 0x30, 0, 0] := by decide

/-- the hypotheses of `C29_in_range_applies` hold for the PC32 relocation above -/
example : Small 0x2000 (-4) (0x1000 + 1) 0 0 (exSym 0x2000) ∧
    psabi (relEnv 0x1000 ⟨1, 2, -4⟩ (exSym 0x2000) 0x2000 0 0) 2 = some (4, 0xffb) ∧ fitsSigned 4 0xffb := by
  refine ⟨⟨by decide, by decide, by decide, by decide, by decide, by decide, ?_, ?_⟩, by decide,
    by unfold fitsSigned; decide⟩
  · intro g h; cases h
  · intro i h; cases h

/-! ### C31 -/

/-- **C31, violated.** An R_X86_64_32S relocation whose value needs more than 32 bits is cut silently;
an R_X86_64_32 relocation with a negative value (the psABI zero-extends this field) is stored as if it
were a large address. -/
theorem C31_violated :
    (∃ out, applyRelocation 0x1000 [0, 0, 0, 0] ⟨0, 11, 0⟩ (exSym 0x100000005) exDt 0 0 = .ok out ∧
      sfield out 0 4 = 5 ∧ ¬ fitsSigned 4 0x100000005) ∧
    (∃ out, applyRelocation 0x1000 [0, 0, 0, 0] ⟨0, 10, -1⟩ (exSym 0) exDt 0 0 = .ok out ∧
      field out 0 4 = 0xffffffff) := by
  refine ⟨⟨[5, 0, 0, 0], by decide, by decide, by unfold fitsSigned; decide⟩,
    ⟨[255, 255, 255, 255], by decide, by decide⟩⟩

/-- **C31, what holds.** For every other type of C29 with a 32-bit field (PC32, PLT32, 32, TLSGD,
GOTTPOFF, GOTPCRELX, REX_GOTPCRELX), relaxed or not: if the value to be stored does not fit a signed
32-bit field, the link stops. What is missing: 32S truncates, and 32 is checked as a signed field. -/
theorem C31_overflow_stops_partial {ca : Nat} {data : Bytes} {rel : Rela} {symbol : Symbol}
    {dt : SymbolTable} {got plt S : Nat} {v : Int} (hS : symAddr symbol dt = some S)
    (hty : r_type rel.r_info ∈ [2, 4, 10, 19, 22, 41, 42])
    (hv : if r_type rel.r_info ∈ [41, 42] ∧ symbol.dynamic = none
      then v = S + rel.r_addend - (ca + rel.r_offset : Nat)
      else psabi (relEnv ca rel symbol S got plt) (r_type rel.r_info) = some (4, v))
    (hfit : ¬ fitsSigned 4 v) :
    applyRelocation ca data rel symbol dt got plt = .error .panic := by
  cases h : applyRelocation ca data rel symbol dt got plt with
  | error e => rw [applyRelocation_error h]
  | ok out =>
    exfalso
    apply hfit
    rw [applyRelocation_eq, bind_ok] at h
    obtain ⟨plan, hpl, hap⟩ := h
    obtain ⟨S', hS', hpo, hr⟩ := relocPlan_ok hpl
    rw [hS] at hS'; cases hS'
    split at hv
    · next hc =>
      subst hv
      obtain ⟨hc, hd⟩ := hc
      generalize r_type rel.r_info = ty at *
      simp only [List.mem_cons, List.not_mem_nil, or_false] at hc
      rcases hc with rfl | rfl
      · change (if symbol.dynamic = none then some (Plan.callJmp _) else symbol.inGot.map _) = some plan at hpo
        rw [if_pos hd] at hpo; cases hpo; exact fits4 hr
      · change (if symbol.dynamic = none then some (Plan.movLea _) else symbol.inGot.map _) = some plan at hpo
        rw [if_pos hd] at hpo; cases hpo; exact fits4 hr
    · next hc =>
      have hrelax : r_type rel.r_info = 41 ∨ r_type rel.r_info = 42 → symbol.dynamic ≠ none := by
        intro h hd; exact hc ⟨by simpa using h, hd⟩
      have hft : r_type rel.r_info ∈ fieldTypes := by
        simp only [fieldTypes, List.mem_cons, List.not_mem_nil, or_false] at hty ⊢; omega
      obtain ⟨w, v', rfl, hw, hps⟩ := planOf_psabi hft hrelax hpo
      rw [hv] at hps; cases hps
      exact fits4 ((hr.2 (by decide)).2 (by
        simp only [List.mem_cons, List.not_mem_nil, or_false, R_X86_64_32S] at hty ⊢; omega))

/-- a PC32 relocation over a distance of 4 GiB stops the link -/
example : applyRelocation 0 [0, 0, 0, 0] ⟨0, 2, 0⟩ (exSym 0x100000000) exDt 0 0 = .error .panic := by decide

/-! ### C32 and C33: relaxations -/

theorem field_one {data : Bytes} {i : Nat} {b : UInt8} (h : data[i]? = some b) :
    field data i 1 = b.toNat := by
  have : slice data i 1 = [b] := by
    unfold slice
    rw [List.getElem?_eq_some_iff] at h
    obtain ⟨hi, h⟩ := h
    rw [List.drop_eq_getElem_cons hi, h]; rfl
  rw [field, this]; simp [fromLe]

/-- the bytes of the instruction table: each accepted pattern is a 64-bit RIP-relative load, and is
replaced by the address computation into the same register -/
theorem movToLea_spec {x y z : UInt8} {i : Bytes} (h : movToLea x y z = some i) :
    (x.toNat = 0x48 ∨ x.toNat = 0x4c) ∧ y.toNat = 0x8b ∧ i = [x, 0x8d, z] ∧
      ∃ r, r < 8 ∧ ripReg z.toNat = some r := by
  unfold movToLea at h
  split at h
  all_goals first
    | (cases h; exact ⟨by decide, by decide, rfl, _, by decide, rfl⟩)
    | cases h

/-- every 64-bit RIP-relative load is in the table -/
theorem movToLea_complete {x y z : UInt8} {r : Nat} (hx : x.toNat = 0x48 ∨ x.toNat = 0x4c)
    (hy : y.toNat = 0x8b) (hz : ripReg z.toNat = some r) : ∃ i, movToLea x y z = some i := by
  have hy' : y = 0x8b := by apply UInt8.toNat.inj; simpa using hy
  have hx' : x = 0x48 ∨ x = 0x4c := by
    rcases hx with h | h
    · left; apply UInt8.toNat.inj; simpa using h
    · right; apply UInt8.toNat.inj; simpa using h
  have hz' : z = 0x05 ∨ z = 0x0d ∨ z = 0x15 ∨ z = 0x1d ∨ z = 0x25 ∨ z = 0x2d ∨ z = 0x35 ∨ z = 0x3d := by
    unfold ripReg at hz
    split at hz
    · next hc =>
      have hlt := z.toNat_lt
      have : z.toNat = 0x05 ∨ z.toNat = 0x0d ∨ z.toNat = 0x15 ∨ z.toNat = 0x1d ∨ z.toNat = 0x25 ∨
          z.toNat = 0x2d ∨ z.toNat = 0x35 ∨ z.toNat = 0x3d := by omega
      have inj : ∀ {k : UInt8}, z.toNat = k.toNat → z = k := fun h => UInt8.toNat.inj h
      rcases this with h | h | h | h | h | h | h | h
      · exact .inl (inj h)
      · exact .inr (.inl (inj h))
      · exact .inr (.inr (.inl (inj h)))
      · exact .inr (.inr (.inr (.inl (inj h))))
      · exact .inr (.inr (.inr (.inr (.inl (inj h)))))
      · exact .inr (.inr (.inr (.inr (.inr (.inl (inj h))))))
      · exact .inr (.inr (.inr (.inr (.inr (.inr (.inl (inj h)))))))
      · exact .inr (.inr (.inr (.inr (.inr (.inr (.inr (inj h)))))))
    · cases hz
  subst hy'
  rcases hx' with rfl | rfl <;>
    rcases hz' with rfl | rfl | rfl | rfl | rfl | rfl | rfl | rfl <;> exact ⟨_, rfl⟩

/-- **C32.** A relaxed REX_GOTPCRELX relocation sits in a RIP-relative 64-bit load; afterwards the
instruction at the same place computes the address `S + A + 4` into the same register. With the
addend -4 the assembler uses this is the address of the symbol. -/
theorem C32_load_becomes_lea {ca : Nat} {data out : Bytes} {rel : Rela} {symbol : Symbol}
    {dt : SymbolTable} {got plt : Nat} (h : applyRelocation ca data rel symbol dt got plt = .ok out)
    (hty : r_type rel.r_info = 42) (hd : symbol.dynamic = none) :
    3 ≤ rel.r_offset ∧ ∃ (S reg : Nat) (slot : Int), symAddr symbol dt = some S ∧ reg < 16 ∧
      decodeInstr data (rel.r_offset - 3) ((ca + rel.r_offset : Nat) - 3) = some (.load reg slot, 7) ∧
      decodeInstr out (rel.r_offset - 3) ((ca + rel.r_offset : Nat) - 3) =
        some (.lea reg (S + rel.r_addend + 4), 7) := by
  rw [applyRelocation_eq, bind_ok] at h
  obtain ⟨plan, hpl, hap⟩ := h
  obtain ⟨S, hS, hpo, hr⟩ := relocPlan_ok hpl
  rw [hty] at hpo
  change (if symbol.dynamic = none then some (Plan.movLea _) else symbol.inGot.map _) = some plan at hpo
  rw [if_pos hd] at hpo; cases hpo
  simp only [planApply, relaxMovLea_eq, bind_ok] at hap
  obtain ⟨⟨st, bs⟩, hp, hw⟩ := hap
  unfold patchMovLea at hp
  split at hp
  · cases hp
  next ho =>
  split at hp
  rotate_left
  · cases hp
  next x y z hx hy hz =>
  split at hp
  rotate_left
  · cases hp
  next instr hm =>
  cases hp
  obtain ⟨h1, h2, rfl, r, hr8, hrip⟩ := movToLea_spec hm
  have hlen := (writeAt_ok.1 hw).1
  have hlo := length_writeAt hw
  simp only [List.length_append, List.length_cons, List.length_nil, length_leInt] at hlen
  generalize ho' : rel.r_offset - 3 = o at *
  have e1 : rel.r_offset - 2 = o + 1 := by omega
  have e2 : rel.r_offset - 1 = o + 2 := by omega
  rw [e1] at hy; rw [e2] at hz
  have f0 : field out (o + 0) 1 = x.toNat := by
    rw [field_writeAt hw (by simp)]; simp [field, slice, fromLe]
  have f1 : field out (o + 1) 1 = 0x8d := by
    rw [field_writeAt hw (by simp)]; simp [field, slice, fromLe]
  have f2 : field out (o + 2) 1 = z.toNat := by
    rw [field_writeAt hw (by simp)]; simp [field, slice, fromLe]
  have f3 : sfield out (o + 3) 4 = S + rel.r_addend - (ca + rel.r_offset : Nat) := by
    rw [sfield_writeAt hw (by simp)]
    have hsl : slice ([x, 0x8d, z] ++ leInt 4 (S + rel.r_addend - (ca + rel.r_offset : Nat))) 3 4 =
        leInt 4 (S + rel.r_addend - (ca + rel.r_offset : Nat)) := by
      rw [slice_append_right (by simp)]; exact slice_self (by simp)
    rw [sfield, field, hsl]
    exact signed_leInt (by decide) (fits4 hr).1 (fits4 hr).2
  refine ⟨by omega, S, r + (if x.toNat = 0x4c then 8 else 0),
    (ca + rel.r_offset : Nat) - 3 + (3 + 4 : Nat) + sfield data (o + 3) 4, hS, ?_, ?_, ?_⟩
  · split <;> omega
  · simp only [decodeInstr, Nat.add_zero, field_one hx, field_one hy, field_one hz, hrip, h1, h2, if_true]
    rw [if_neg (by omega)]
  · simp only [decodeInstr, f0, f1, f2, f3, hrip, h1, if_true]
    rw [if_neg (by omega), if_neg (by decide)]
    simp only [Option.some.injEq, Prod.mk.injEq, and_true, Instr.lea.injEq, true_and]
    omega

/-- **C32, coverage.** Every 64-bit RIP-relative load, whatever its register, is rewritten (when the
displacement fits and the addresses are below 2^60). -/
theorem C32_every_register {ca : Nat} {data : Bytes} {rel : Rela} {symbol : Symbol}
    {dt : SymbolTable} {got plt S reg : Nat} {addr slot : Int} (hS : symAddr symbol dt = some S)
    (hty : r_type rel.r_info = 42) (hd : symbol.dynamic = none) (ho : 3 ≤ rel.r_offset)
    (hi : decodeInstr data (rel.r_offset - 3) addr = some (.load reg slot, 7))
    (hfit : fitsSigned 4 (S + rel.r_addend - (ca + rel.r_offset : Nat)))
    (hsmall : Small S rel.r_addend (ca + rel.r_offset) got plt symbol) :
    ∃ out, applyRelocation ca data rel symbol dt got plt = .ok out := by
  have hpo : planOf symbol (r_type rel.r_info) S rel.r_addend (ca + rel.r_offset : Nat) got plt =
      some (.movLea (S + rel.r_addend - (ca + rel.r_offset : Nat))) := by
    rw [hty]
    change (if symbol.dynamic = none then some (Plan.movLea _) else symbol.inGot.map _) = _
    rw [if_pos hd]
  have hr : (Plan.movLea (S + rel.r_addend - (ca + rel.r_offset : Nat))).InRange (r_type rel.r_info) := by
    unfold fitsSigned at hfit
    simp only [Plan.InRange]; omega
  generalize ho' : rel.r_offset - 3 = o at *
  have hb : ∀ {i}, o + i < data.length → data[o + i]? = some data[o + i]! := by
    intro i h
    rw [List.getElem?_eq_getElem h, getElem!_pos data (o + i) h]
  simp only [decodeInstr] at hi
  split at hi
  rotate_left
  · split at hi
    · split at hi
      · split at hi
        · cases hi
        · repeat' split at hi
          all_goals cases hi
      · cases hi
    · repeat' split at hi
      all_goals cases hi
  next hx =>
  split at hi
  rotate_left
  · cases hi
  next r hz =>
  split at hi
  · cases hi
  next hlen =>
  split at hi
  rotate_left
  · split at hi <;> cases hi
  next hy =>
  have b0 := hb (i := 0) (by omega)
  have b1 := hb (i := 1) (by omega)
  have b2 := hb (i := 2) (by omega)
  rw [field_one b0] at hx
  rw [field_one b1] at hy
  rw [field_one b2] at hz
  obtain ⟨i, him⟩ := movToLea_complete hx hy hz
  have e1 : rel.r_offset - 2 = o + 1 := by omega
  have e2 : rel.r_offset - 1 = o + 2 := by omega
  refine ⟨data.take o ++ (i ++ leInt 4 (S + rel.r_addend - (ca + rel.r_offset : Nat))) ++
    data.drop (o + (i ++ leInt 4 (S + rel.r_addend - (ca + rel.r_offset : Nat))).length), ?_⟩
  rw [applyRelocation_eq, bind_ok]
  refine ⟨_, relocPlan_complete hS hsmall hpo hr, ?_⟩
  simp only [planApply, relaxMovLea]
  rw [if_neg (by omega), ho', e1, e2, show data[o]? = some data[o + 0]! from b0, b1, b2]
  simp only [him]
  exact writeAt_ok.2 ⟨by simp [movToLea_length him]; omega, rfl⟩

/-- `mov foo@GOTPCREL(%rip), %r9` with `foo` at 0x2000 -/
example : applyRelocation 0x1000 [0x4c, 0x8b, 0x0d, 0, 0, 0, 0] ⟨3, 42, -4⟩ (exSym 0x2000) exDt 0 0
      = .ok [0x4c, 0x8d, 0x0d, 0xf9, 0x0f, 0, 0] ∧
    decodeInstr [0x4c, 0x8d, 0x0d, 0xf9, 0x0f, 0, 0] 0 0x1000 = some (.lea 9 0x2000, 7) := by decide

/-- **C33, violated.** `call *foo@GOTPCREL(%rip)` with `foo` at 0x2000 becomes a call to 0x1fff. -/
theorem C33_violated :
    ∃ out, applyRelocation 0x1000 [0xff, 0x15, 0, 0, 0, 0] ⟨2, 41, -4⟩ (exSym 0x2000) exDt 0 0 = .ok out ∧
      decodeInstr [0xff, 0x15, 0, 0, 0, 0] 0 0x1000 = some (.callMem 0x1006, 6) ∧
      decodeInstr out 0 0x1000 = some (.call 0x1fff, 5) := by
  exact ⟨[0xe8, 0xfa, 0x0f, 0, 0, 0x90], by decide, by decide, by decide⟩

/-- **C33, what holds.** A relaxed GOTPCRELX relocation sits in an indirect RIP-relative call or jump;
afterwards a direct call or jump of the same kind, followed by a `nop`, is at the same place and its
target is `S + A + 3`. With the assembler's addend -4 that is one byte before the symbol, for every
input: the claim fails on each relaxation. -/
theorem C33_direct_branch_partial {ca : Nat} {data out : Bytes} {rel : Rela} {symbol : Symbol}
    {dt : SymbolTable} {got plt : Nat} (h : applyRelocation ca data rel symbol dt got plt = .ok out)
    (hty : r_type rel.r_info = 41) (hd : symbol.dynamic = none) :
    2 ≤ rel.r_offset ∧ ∃ (S : Nat) (slot : Int), symAddr symbol dt = some S ∧
      ((decodeInstr data (rel.r_offset - 2) ((ca + rel.r_offset : Nat) - 2) = some (.callMem slot, 6) ∧
        decodeInstr out (rel.r_offset - 2) ((ca + rel.r_offset : Nat) - 2) =
          some (.call (S + rel.r_addend + 3), 5)) ∨
       (decodeInstr data (rel.r_offset - 2) ((ca + rel.r_offset : Nat) - 2) = some (.jmpMem slot, 6) ∧
        decodeInstr out (rel.r_offset - 2) ((ca + rel.r_offset : Nat) - 2) =
          some (.jmp (S + rel.r_addend + 3), 5))) ∧
      decodeInstr out (rel.r_offset + 3) ((ca + rel.r_offset : Nat) + 3) = some (.nop, 1) := by
  rw [applyRelocation_eq, bind_ok] at h
  obtain ⟨plan, hpl, hap⟩ := h
  obtain ⟨S, hS, hpo, hr⟩ := relocPlan_ok hpl
  rw [hty] at hpo
  change (if symbol.dynamic = none then some (Plan.callJmp _) else symbol.inGot.map _) = some plan at hpo
  rw [if_pos hd] at hpo; cases hpo
  simp only [planApply, relaxCallJmp_eq, bind_ok] at hap
  obtain ⟨⟨st, bs⟩, hp, hw⟩ := hap
  unfold patchCallJmp at hp
  split at hp
  · cases hp
  next ho =>
  have main : ∀ (op2 op : UInt8), data[rel.r_offset - 2]? = some 0xff → data[rel.r_offset - 1]? = some op2 →
      (st, bs) = (rel.r_offset - 2, [op] ++ leInt 4 (S + rel.r_addend - (ca + rel.r_offset : Nat)) ++ [0x90]) →
      field data (rel.r_offset - 2) 1 = 0xff ∧ field data (rel.r_offset - 2 + 1) 1 = op2.toNat ∧
      rel.r_offset - 2 + 6 ≤ data.length ∧ out.length = data.length ∧
      field out (rel.r_offset - 2) 1 = op.toNat ∧
      sfield out (rel.r_offset - 2 + 1) 4 = S + rel.r_addend - (ca + rel.r_offset : Nat) ∧
      field out (rel.r_offset + 3) 1 = 0x90 := by
    intro op2 op hx hy hst
    cases hst
    have hlen := (writeAt_ok.1 hw).1
    simp only [List.length_append, List.length_cons, List.length_nil, length_leInt] at hlen
    refine ⟨by rw [field_one hx]; rfl, ?_, by omega, length_writeAt hw, ?_, ?_, ?_⟩
    · rw [show rel.r_offset - 2 + 1 = rel.r_offset - 1 by omega, field_one hy]
    · rw [show rel.r_offset - 2 = rel.r_offset - 2 + 0 by omega, field_writeAt hw (by simp)]
      simp [field, slice, fromLe]
    · rw [sfield_writeAt hw (by simp)]
      rw [sfield, field, slice_mid (by simp) (by simp)]
      exact signed_leInt (by decide) (fits4 hr).1 (fits4 hr).2
    · rw [show rel.r_offset + 3 = rel.r_offset - 2 + 5 by omega, field_writeAt hw (by simp)]
      rw [field, slice_append_right (by simp)]
      simp [slice, fromLe]
  split at hp
  · next hx hy =>
    cases hp
    obtain ⟨a1, a2, a3, a4, a5, a6, a7⟩ := main _ _ hx hy rfl
    refine ⟨by omega, S,
      (ca + rel.r_offset : Nat) - 2 + (2 + 4 : Nat) + sfield data (rel.r_offset - 2 + 2) 4, hS, .inl ⟨?_, ?_⟩, ?_⟩
    · simp only [decodeInstr, Nat.add_zero, a1, a2]
      simp [ripReg]; omega
    · simp only [decodeInstr, Nat.add_zero, a5, a6]
      simp; omega
    · simp only [decodeInstr, Nat.add_zero, a7]
      simp; omega
  · next hx hy =>
    cases hp
    obtain ⟨a1, a2, a3, a4, a5, a6, a7⟩ := main _ _ hx hy rfl
    refine ⟨by omega, S,
      (ca + rel.r_offset : Nat) - 2 + (2 + 4 : Nat) + sfield data (rel.r_offset - 2 + 2) 4, hS, .inr ⟨?_, ?_⟩, ?_⟩
    · simp only [decodeInstr, Nat.add_zero, a1, a2]
      simp [ripReg]; omega
    · simp only [decodeInstr, Nat.add_zero, a5, a6]
      simp; omega
    · simp only [decodeInstr, Nat.add_zero, a7]
      simp; omega
  · cases hp

/-! ### C34 -/

/-- the types `apply_relocation` handles: NONE, 64, PC32, GOT32, PLT32, 32, 32S, TLSGD, GOTTPOFF,
TPOFF32, GOTPCRELX, REX_GOTPCRELX -/
def appliedTypes : List Nat := [0, 1, 2, 3, 4, 10, 11, 19, 22, 23, 41, 42]

/-- **C34.** Adding an 8- or 16-bit relocation is rejected with an error naming the type and the
input; everything else is recorded. Applying a relocation of a type outside the supported set stops
the link whatever the data, so no output is produced from it. -/
theorem C34_unsupported_types :
    (∀ (w : Writer) (rel : Rela) (r : SymbolRef) (sr : SectionRef) (path : Path),
      r_type rel.r_info ∈ [12, 13, 14, 15] →
        w.addRelocation rel r sr path = .error (.err path (.nonAbiReloc (r_type rel.r_info)))) ∧
    (∀ (w : Writer) (rel : Rela) (r : SymbolRef) (sr : SectionRef) (path : Path),
      r_type rel.r_info ∉ [12, 13, 14, 15] →
        w.addRelocation rel r sr path = w.modChunk sr (·.addRelocation rel r)) ∧
    (∀ (ca : Nat) (data : Bytes) (rel : Rela) (symbol : Symbol) (dt : SymbolTable) (got plt : Nat),
      r_type rel.r_info ∉ appliedTypes →
        applyRelocation ca data rel symbol dt got plt = .error .panic) := by
  refine ⟨?_, ?_, ?_⟩
  · intro w rel r sr path h
    simp only [List.mem_cons, List.not_mem_nil, or_false] at h
    unfold Writer.addRelocation
    simp only
    rw [if_pos]
    simp only [R_X86_64_8, R_X86_64_16, R_X86_64_PC16, R_X86_64_PC8]; omega
  · intro w rel r sr path h
    simp only [List.mem_cons, List.not_mem_nil, or_false] at h
    unfold Writer.addRelocation
    simp only
    rw [if_neg]
    simp only [R_X86_64_8, R_X86_64_16, R_X86_64_PC16, R_X86_64_PC8]; omega
  · intro ca data rel symbol dt got plt h
    cases ha : applyRelocation ca data rel symbol dt got plt with
    | error e => rw [applyRelocation_error ha]
    | ok out =>
      exfalso
      rw [applyRelocation_eq, bind_ok] at ha
      obtain ⟨plan, hpl, -⟩ := ha
      obtain ⟨S, -, hpo, -⟩ := relocPlan_ok hpl
      generalize r_type rel.r_info = ty at *
      have hn : ∀ k, k ∈ appliedTypes → ¬ ty = k := fun k hk e => h (e ▸ hk)
      unfold planOf at hpo
      rw [if_neg (hn R_X86_64_NONE (by decide)), if_neg (hn R_X86_64_64 (by decide)),
        if_neg (hn R_X86_64_32 (by decide)), if_neg (hn R_X86_64_32S (by decide)),
        if_neg (hn R_X86_64_PC32 (by decide)), if_neg (hn R_X86_64_GOT32 (by decide)),
        if_neg (hn R_X86_64_GOTPCRELX (by decide)), if_neg (hn R_X86_64_REX_GOTPCRELX (by decide)),
        if_neg (not_or.2 ⟨hn R_X86_64_TLSGD (by decide), hn R_X86_64_GOTTPOFF (by decide)⟩),
        if_neg (hn R_X86_64_TPOFF32 (by decide)), if_neg (hn R_X86_64_PLT32 (by decide))] at hpo
      cases hpo

/-- type 9 (GOTPCREL) passes `add_relocation` and stops the link when applied -/
example : applyRelocation 0 [0, 0, 0, 0] ⟨0, 9, 0⟩ (exSym 0) exDt 0 0 = .error .panic := by decide

/-! ### C35 -/

/-- two byte regions (start, length) do not overlap -/
def Apart (a b : Nat × Nat) : Prop := a.1 + a.2 ≤ b.1 ∨ b.1 + b.2 ≤ a.1

/-- the bytes a relocation entry of a chunk patches -/
def regionOf (table : SymbolTable) (e : Rela × SymbolRef) : Nat × Nat :=
  match table.get e.2 with
  | some s => patchRegion e.1 s
  | none => (0, 0)

/-- one step of the loop of `apply_relocations` -/
private def stepReloc (addr : Option Nat) (table dt : SymbolTable) (got plt : Nat) (data : Bytes)
    (e : Rela × SymbolRef) : M Bytes := do
  let addr ← unwrap addr
  let symbol ← unwrap (table.get e.2)
  applyRelocation addr data e.1 symbol dt got plt

private def stepPatch (addr : Option Nat) (table dt : SymbolTable) (got plt : Nat) (data : Bytes)
    (e : Rela × SymbolRef) : M (Nat × Bytes) := do
  let addr ← unwrap addr
  let symbol ← unwrap (table.get e.2)
  relocPatch addr data e.1 symbol dt got plt

private theorem stepReloc_eq (addr : Option Nat) (table dt : SymbolTable) (got plt : Nat) (data : Bytes)
    (e : Rela × SymbolRef) : stepReloc addr table dt got plt data e =
      stepPatch addr table dt got plt data e >>= fun p => writeAt data p.1 p.2 := by
  simp only [stepReloc, stepPatch, bind_assoc', applyRelocation_patch]

private theorem stepPatch_region {addr : Option Nat} {table dt : SymbolTable} {got plt : Nat} {data : Bytes}
    {e : Rela × SymbolRef} {st : Nat} {bs : Bytes}
    (h : stepPatch addr table dt got plt data e = .ok (st, bs)) : regionOf table e = (st, bs.length) := by
  simp only [stepPatch, bind_ok, unwrap_ok] at h
  obtain ⟨a, -, s, hs, h⟩ := h
  rw [regionOf, hs]
  exact relocPatch_region h

private theorem stepPatch_congr {addr : Option Nat} {table dt : SymbolTable} {got plt : Nat}
    {data data' : Bytes} {e : Rela × SymbolRef} {p : Nat × Bytes}
    (h : stepPatch addr table dt got plt data e = .ok p)
    (hc : ∀ i, (regionOf table e).1 ≤ i → i < (regionOf table e).1 + (regionOf table e).2 → data'[i]? = data[i]?) :
    stepPatch addr table dt got plt data' e = .ok p := by
  obtain ⟨st, bs⟩ := p
  rw [stepPatch_region h] at hc
  simp only [stepPatch, bind_ok, unwrap_ok] at h ⊢
  obtain ⟨a, ha, s, hs, h⟩ := h
  exact ⟨a, ha, s, hs, relocPatch_congr h hc⟩

/-- what a successful run of the loop does, in terms of the original data only -/
private theorem runReloc_ok {addr : Option Nat} {table dt : SymbolTable} {got plt : Nat}
    {l : List (Rela × SymbolRef)} {data out : Bytes}
    (hd : l.Pairwise fun a b => Apart (regionOf table a) (regionOf table b))
    (h : foldM' (stepReloc addr table dt got plt) data l = .ok out) :
    out.length = data.length ∧
    (∀ e ∈ l, ∃ st bs, stepPatch addr table dt got plt data e = .ok (st, bs) ∧ st + bs.length ≤ data.length ∧
      ∀ i, st ≤ i → i < st + bs.length → out[i]? = bs[i - st]?) ∧
    (∀ i, (∀ e ∈ l, ¬ ((regionOf table e).1 ≤ i ∧ i < (regionOf table e).1 + (regionOf table e).2)) →
      out[i]? = data[i]?) := by
  induction l generalizing data with
  | nil => cases h; exact ⟨rfl, by simp, fun _ _ => rfl⟩
  | cons a l ih =>
    rw [foldM'_cons, bind_ok] at h
    obtain ⟨d1, h1, h2⟩ := h
    rw [stepReloc_eq, bind_ok] at h1
    obtain ⟨⟨st, bs⟩, hp, hw⟩ := h1
    simp only at hw
    rw [List.pairwise_cons] at hd
    obtain ⟨i1, i2, i3⟩ := ih hd.2 h2
    have hra := stepPatch_region hp
    have hwl := length_writeAt hw
    have hwi := getElem?_writeAt hw
    refine ⟨by omega, ?_, ?_⟩
    · intro e he
      rcases List.mem_cons.1 he with rfl | he
      · refine ⟨st, bs, hp, (writeAt_ok.1 hw).1, fun i hi1 hi2 => ?_⟩
        rw [i3 i, hwi, if_pos ⟨hi1, hi2⟩]
        intro e' he' hc
        have := hd.1 e' he'
        rw [hra] at this
        unfold Apart at this
        omega
      · obtain ⟨st', bs', hp', hb', hv⟩ := i2 e he
        have hre := stepPatch_region hp'
        refine ⟨st', bs', stepPatch_congr hp' fun i hi1 hi2 => ?_, by omega, hv⟩
        have := hd.1 e he
        rw [hra] at this
        unfold Apart at this
        simp only at this
        rw [hwi, if_neg (by omega)]
    · intro i hi
      rw [i3 i fun e he => hi e (by simp [he]), hwi, if_neg]
      have := hi a (by simp)
      rw [hra] at this
      exact this

private theorem runReloc_complete {addr : Option Nat} {table dt : SymbolTable} {got plt : Nat}
    {l : List (Rela × SymbolRef)} {data : Bytes}
    (hd : l.Pairwise fun a b => Apart (regionOf table a) (regionOf table b))
    (h : ∀ e ∈ l, ∃ st bs, stepPatch addr table dt got plt data e = .ok (st, bs) ∧ st + bs.length ≤ data.length) :
    ∃ out, foldM' (stepReloc addr table dt got plt) data l = .ok out := by
  induction l generalizing data with
  | nil => exact ⟨data, rfl⟩
  | cons a l ih =>
    rw [List.pairwise_cons] at hd
    obtain ⟨st, bs, hp, hb⟩ := h a (by simp)
    have hra := stepPatch_region hp
    have hw : writeAt data st bs = .ok _ := writeAt_ok.2 ⟨hb, rfl⟩
    have hwl := length_writeAt hw
    have hwi := getElem?_writeAt hw
    generalize data.take st ++ bs ++ data.drop (st + bs.length) = d1 at *
    obtain ⟨out, ho⟩ := ih (data := d1) hd.2 (by
      intro e he
      obtain ⟨st', bs', hp', hb'⟩ := h e (by simp [he])
      have hre := stepPatch_region hp'
      refine ⟨st', bs', stepPatch_congr hp' fun i hi1 hi2 => ?_, by omega⟩
      have := hd.1 e he
      rw [hra] at this
      unfold Apart at this
      simp only at this
      rw [hwi, if_neg (by omega)])
    refine ⟨out, ?_⟩
    rw [foldM'_cons, bind_ok]
    refine ⟨d1, ?_, ho⟩
    rw [stepReloc_eq, bind_ok]
    exact ⟨(st, bs), hp, hw⟩

private theorem runReloc_error {addr : Option Nat} {table dt : SymbolTable} {got plt : Nat}
    {l : List (Rela × SymbolRef)} {data : Bytes} {e : Fail}
    (h : foldM' (stepReloc addr table dt got plt) data l = .error e) : e = .panic := by
  induction l generalizing data with
  | nil => cases h
  | cons a l ih =>
    rw [foldM'_cons] at h
    cases hs : stepReloc addr table dt got plt data a with
    | ok d => rw [hs] at h; exact ih h
    | error e' =>
      rw [hs] at h; cases h
      unfold stepReloc at hs
      cases addr with
      | none => cases hs; rfl
      | some ad =>
        simp only [unwrap, ok_bind] at hs
        cases hg : table.get a.2 with
        | none => rw [hg] at hs; cases hs; rfl
        | some s => rw [hg] at hs; exact applyRelocation_error hs

private theorem apart_symm {a b : Nat × Nat} (h : Apart a b) : Apart b a := by
  unfold Apart at *; omega

private theorem runReloc_perm {addr : Option Nat} {table dt : SymbolTable} {got plt : Nat}
    {l l' : List (Rela × SymbolRef)} {data : Bytes} (hp : l'.Perm l)
    (hd : l.Pairwise fun a b => Apart (regionOf table a) (regionOf table b)) :
    foldM' (stepReloc addr table dt got plt) data l' = foldM' (stepReloc addr table dt got plt) data l := by
  have hd' : l'.Pairwise fun a b => Apart (regionOf table a) (regionOf table b) :=
    (List.Perm.pairwise_iff (fun h => apart_symm h) hp).2 hd
  have tr : ∀ {l l' : List (Rela × SymbolRef)} {out}, l'.Perm l →
      (l.Pairwise fun a b => Apart (regionOf table a) (regionOf table b)) →
      (l'.Pairwise fun a b => Apart (regionOf table a) (regionOf table b)) →
      foldM' (stepReloc addr table dt got plt) data l = .ok out →
      foldM' (stepReloc addr table dt got plt) data l' = .ok out := by
    intro l l' out hp hd hd' h
    obtain ⟨a1, a2, a3⟩ := runReloc_ok hd h
    obtain ⟨out', h'⟩ := runReloc_complete (data := data) hd' (by
      intro e he
      obtain ⟨st, bs, h1, h2, -⟩ := a2 e (hp.mem_iff.1 he)
      exact ⟨st, bs, h1, h2⟩)
    obtain ⟨b1, b2, b3⟩ := runReloc_ok hd' h'
    rw [h']
    congr 1
    apply List.ext_getElem?
    intro i
    by_cases hi : ∃ e ∈ l, (regionOf table e).1 ≤ i ∧ i < (regionOf table e).1 + (regionOf table e).2
    · obtain ⟨e, he, hr⟩ := hi
      obtain ⟨st, bs, h1, -, h3⟩ := a2 e he
      obtain ⟨st', bs', h1', -, h3'⟩ := b2 e (hp.mem_iff.2 he)
      rw [h1] at h1'; cases h1'
      rw [stepPatch_region h1] at hr
      rw [h3 i hr.1 hr.2, h3' i hr.1 hr.2]
    · have hn : ∀ e ∈ l, ¬ ((regionOf table e).1 ≤ i ∧ i < (regionOf table e).1 + (regionOf table e).2) :=
        fun e he hc => hi ⟨e, he, hc⟩
      rw [a3 i hn, b3 i fun e he => hn e (hp.mem_iff.1 he)]
  cases h : foldM' (stepReloc addr table dt got plt) data l with
  | ok out => exact tr hp hd hd' h
  | error e =>
    cases h' : foldM' (stepReloc addr table dt got plt) data l' with
    | ok out => rw [tr hp.symm hd' hd h'] at h; cases h
    | error e' => rw [runReloc_error h, runReloc_error h']

/-- **C35, order.** When the regions patched by the relocations of a chunk are pairwise apart, any
reordering of the relocations gives the same data, or stops the link in both cases. -/
theorem C35_order_irrelevant {c : Chunk} {l' : List (Rela × SymbolRef)} {table dt : SymbolTable}
    {got plt : Nat} (hp : l'.Perm c.relocations)
    (hd : c.relocations.Pairwise fun a b => Apart (regionOf table a) (regionOf table b)) :
    (Chunk.applyRelocations { c with relocations := l' } got plt table dt).map Chunk.data =
      (c.applyRelocations got plt table dt).map Chunk.data := by
  have key := runReloc_perm (addr := c.address) (dt := dt) (got := got) (plt := plt) (data := c.data) hp hd
  unfold stepReloc at key
  unfold Chunk.applyRelocations
  simp only [key]
  cases foldM' (fun data (e : Rela × SymbolRef) => do
      let addr ← unwrap c.address
      let symbol ← unwrap (table.get e.2)
      applyRelocation addr data e.1 symbol dt got plt) c.data c.relocations <;> rfl

/-- **C35, effect.** Under the same hypothesis every relocation of a successful run is applicable to
the original data on its own, its region ends up exactly as if it alone had been applied, and bytes
outside all regions are untouched. -/
theorem C35_each_field {c c' : Chunk} {table dt : SymbolTable} {got plt : Nat}
    (hd : c.relocations.Pairwise fun a b => Apart (regionOf table a) (regionOf table b))
    (h : c.applyRelocations got plt table dt = .ok c') :
    c'.data.length = c.data.length ∧
    (∀ e ∈ c.relocations, ∃ addr symbol out, c.address = some addr ∧ table.get e.2 = some symbol ∧
      applyRelocation addr c.data e.1 symbol dt got plt = .ok out ∧
      ∀ i, (regionOf table e).1 ≤ i → i < (regionOf table e).1 + (regionOf table e).2 →
        c'.data[i]? = out[i]?) ∧
    (∀ i, (∀ e ∈ c.relocations, ¬ ((regionOf table e).1 ≤ i ∧ i < (regionOf table e).1 + (regionOf table e).2)) →
      c'.data[i]? = c.data[i]?) := by
  rw [Chunk.applyRelocations, bind_ok] at h
  obtain ⟨out, h, hc⟩ := h
  cases hc
  change foldM' (stepReloc c.address table dt got plt) c.data c.relocations = .ok out at h
  obtain ⟨a1, a2, a3⟩ := runReloc_ok hd h
  refine ⟨a1, ?_, a3⟩
  intro e he
  obtain ⟨st, bs, h1, h2, h3⟩ := a2 e he
  have hr := stepPatch_region h1
  simp only [stepPatch, bind_ok, unwrap_ok] at h1
  obtain ⟨addr, ha, s, hs, hp⟩ := h1
  have hw : writeAt c.data st bs = .ok _ := writeAt_ok.2 ⟨h2, rfl⟩
  refine ⟨addr, s, c.data.take st ++ bs ++ c.data.drop (st + bs.length), ha, hs, ?_, ?_⟩
  · rw [applyRelocation_patch, bind_ok]
    exact ⟨(st, bs), hp, hw⟩
  · rw [hr]
    intro i hi1 hi2
    simp only at hi1 hi2
    rw [h3 i hi1 hi2, getElem?_writeAt hw, if_pos ⟨hi1, hi2⟩]

/-- two disjoint relocations of one chunk -/
example :
    let t : SymbolTable := { symbols := [(1, exSym 0x2000)], sectionSyms := [], numLocals := 0, isDynamic := false }
    let c : Chunk := { address := some 0x1000, data := [0xe8, 0, 0, 0, 0, 0xe8, 0, 0, 0, 0]
                       relocations := [(⟨1, 2, -4⟩, .named 1), (⟨6, 2, -4⟩, .named 1)] }
    (c.relocations.Pairwise fun a b => Apart (regionOf t a) (regionOf t b)) ∧
    (c.applyRelocations 0 0 t exDt).map (·.data) =
      .ok [0xe8, 0xfb, 0x0f, 0, 0, 0xe8, 0xf6, 0x0f, 0, 0] := by
  refine ⟨?_, by decide⟩
  simp [regionOf, Apart]
  decide

/-! ### C77 and C78 -/

/-- **C77, violated.** The psABI value of GOT32 is `G + A`; the code stores `G + GOT + A - P`. -/
theorem C77_violated :
    ∃ out, applyRelocation 0x1000 [0, 0, 0, 0] ⟨0, 3, 0⟩ { exSym 0x2000 with inGot := some 8 } exDt 0x4000 0 = .ok out ∧
      psabi (relEnv 0x1000 ⟨0, 3, 0⟩ { exSym 0x2000 with inGot := some 8 } 0x2000 0x4000 0) 3 = some (4, 8) ∧
      sfield out 0 4 = 0x3008 :=
  ⟨[8, 0x30, 0, 0], by decide, by decide, by decide⟩

/-- **C77, what holds.** A successfully applied GOT32 relocation stores the GOT-relative displacement
that the psABI prescribes for GOTPCREL; it equals the GOT32 value exactly when the GOT is at the
place being relocated. -/
theorem C77_got32_partial {ca : Nat} {data out : Bytes} {rel : Rela} {symbol : Symbol} {dt : SymbolTable}
    {got plt : Nat} (h : applyRelocation ca data rel symbol dt got plt = .ok out)
    (hty : r_type rel.r_info = 3) :
    ∃ S v v', psabi (relEnv ca rel symbol S got plt) 9 = some (4, v) ∧
      psabi (relEnv ca rel symbol S got plt) 3 = some (4, v') ∧
      sfield out rel.r_offset 4 = v ∧ (v = v' ↔ got = ca + rel.r_offset) := by
  rw [applyRelocation_eq, bind_ok] at h
  obtain ⟨plan, hpl, hap⟩ := h
  obtain ⟨S, hS, hpo, hr⟩ := relocPlan_ok hpl
  rw [hty] at hpo
  change symbol.inGot.map _ = some plan at hpo
  simp only [Option.map_eq_some_iff] at hpo
  obtain ⟨g, hg, rfl⟩ := hpo
  refine ⟨S, _, g + rel.r_addend, by simp [psabi, relEnv, hg]; rfl, by simp [psabi, relEnv, hg], ?_, ?_⟩
  · exact sfield_write (by decide) hap (fits4 ((hr.2 (by decide)).2 (by rw [hty]; decide)))
  · omega

/-- the thread pointer offset of an address: relative to the end of the TLS segment -/
def tpoff (S A tlsEnd : Int) : Int := S + A - tlsEnd

/-- **C78, violated.** For a thread-local variable the code stores its address; with a TLS segment
ending at 0x2010 the variable at 0x2000 has thread pointer offset -16. -/
theorem C78_violated :
    ∃ out, applyRelocation 0x1000 [0, 0, 0, 0] ⟨0, 23, 0⟩ (exSym 0x2000) exDt 0 0 = .ok out ∧
      tpoff 0x2000 0 0x2010 = -16 ∧ sfield out 0 4 = 0x2000 :=
  ⟨[0, 0x20, 0, 0], by decide, by decide, by decide⟩

/-- **C78, what holds.** A successfully applied TPOFF32 relocation stores `S + A`, which is the thread
pointer offset exactly when the TLS segment ends at address 0 (the code never looks at it). -/
theorem C78_tpoff32_partial {ca : Nat} {data out : Bytes} {rel : Rela} {symbol : Symbol} {dt : SymbolTable}
    {got plt : Nat} (h : applyRelocation ca data rel symbol dt got plt = .ok out)
    (hty : r_type rel.r_info = 23) :
    ∃ S : Nat, symAddr symbol dt = some S ∧ sfield out rel.r_offset 4 = S + rel.r_addend ∧
      ∀ tlsEnd, sfield out rel.r_offset 4 = tpoff S rel.r_addend tlsEnd ↔ tlsEnd = 0 := by
  rw [applyRelocation_eq, bind_ok] at h
  obtain ⟨plan, hpl, hap⟩ := h
  obtain ⟨S, hS, hpo, hr⟩ := relocPlan_ok hpl
  rw [hty] at hpo
  cases hpo
  have := sfield_write (by decide) hap (fits4 ((hr.2 (by decide)).2 (by rw [hty]; decide)))
  refine ⟨S, hS, this, fun e => ?_⟩
  rw [this]; unfold tpoff; omega

end Dld
