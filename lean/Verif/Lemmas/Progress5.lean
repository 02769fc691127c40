import Verif.Lemmas.Progress4
import Verif.Spec.Progress
import Verif.Props.Got
/-! # Applying the relocations succeeds -/
namespace Dld
open Writer Spec StringTable

variable {opts : Options} {ops : List Op} {sched : Sched} {w w' : Writer}

/-! ### One chunk -/

theorem writeAt_outside {d v d' : Bytes} {o i : Nat} (h : writeAt d o v = .ok d') (hi : i < o ∨ o + v.length ≤ i) : d'[i]? = d[i]? := by
  rw [getElem?_writeAt h, if_neg (by omega)]

/-- the relocations of a chunk are applied when each can be applied to the data as it was and no two touch the same bytes -/
theorem applyLoop_progress {addr got plt : Nat} {t dt : SymbolTable} {d0 : Bytes} {reg : Rela × SymbolRef → Nat × Nat} :
    ∀ {l : List (Rela × SymbolRef)} {d : Bytes}, d.length = d0.length →
    (∀ e ∈ l, ∀ i, (reg e).1 ≤ i → i < (reg e).1 + (reg e).2 → d[i]? = d0[i]?) →
    (∀ e ∈ l, ∃ sym st bs, t.get e.2 = some sym ∧ relocPatch addr d0 e.1 sym dt got plt = .ok (st, bs) ∧ st + bs.length ≤ d0.length ∧
      (bs.length = 0 ∨ ((reg e).1 ≤ st ∧ st + bs.length ≤ (reg e).1 + (reg e).2))) →
    l.Pairwise (fun a b => Apart (reg a) (reg b)) →
    ∃ d', foldM' (fun data (e : Rela × SymbolRef) => do
      let addr ← unwrap (some addr)
      let symbol ← unwrap (t.get e.2)
      applyRelocation addr data e.1 symbol dt got plt) d l = (.ok d' : M Bytes) := by
  intro l
  induction l with
  | nil => intro d _ _ _ _; exact ⟨d, rfl⟩
  | cons e l ih =>
    intro d hlen hsame hok hap
    obtain ⟨sym, st, bs, h1, h2, h3, h4⟩ := hok e (by simp)
    rw [List.pairwise_cons] at hap
    have h5 : relocPatch addr d e.1 sym dt got plt = .ok (st, bs) := by
      refine relocPatch_congr h2 fun i hi1 hi2 => hsame e (by simp) i ?_ ?_ <;> omega
    obtain ⟨d1, h6, h7⟩ := writeAt_progress (d := d) (o := st) (v := bs) (by omega)
    obtain ⟨d2, h8⟩ := ih (d := d1) (by omega) (by
      intro e' he' i hi1 hi2
      rw [← hsame e' (by simp [he']) i hi1 hi2]
      refine writeAt_outside h6 ?_
      rcases h4 with h4 | ⟨h4, h5⟩
      · omega
      · rcases hap.1 e' he' with h | h <;> omega) (fun e' he' => hok e' (by simp [he'])) hap.2
    refine ⟨d2, ?_⟩
    rw [foldM'_cons]
    have : (do
      let addr ← unwrap (some addr)
      let symbol ← unwrap (t.get e.2)
      applyRelocation addr d e.1 symbol dt got plt : M Bytes) = .ok d1 := by
      rw [h1]
      show applyRelocation addr d e.1 sym dt got plt = _
      rw [applyRelocation_patch, h5]
      exact h6
    rw [this]
    exact h8

theorem applyRelocations_progress {c : Chunk} {addr got plt : Nat} {t dt : SymbolTable} {reg : Rela × SymbolRef → Nat × Nat}
    (ha : c.relocations ≠ [] → c.address = some addr)
    (hok : ∀ e ∈ c.relocations, ∃ sym st bs, t.get e.2 = some sym ∧ relocPatch addr c.data e.1 sym dt got plt = .ok (st, bs) ∧ st + bs.length ≤ c.data.length ∧
      (bs.length = 0 ∨ ((reg e).1 ≤ st ∧ st + bs.length ≤ (reg e).1 + (reg e).2)))
    (hap : c.relocations.Pairwise fun a b => Apart (reg a) (reg b)) : ∃ c', c.applyRelocations got plt t dt = .ok c' := by
  unfold Chunk.applyRelocations
  by_cases hn : c.relocations = []
  · rw [hn]; exact ⟨_, rfl⟩
  · rw [ha hn]
    obtain ⟨d', h⟩ := applyLoop_progress (d0 := c.data) (reg := reg) (d := c.data) rfl (fun _ _ _ _ _ => rfl) hok hap
    rw [h]
    exact ⟨_, rfl⟩

/-! ### One relocation -/

/-- the numbers a relocation is computed from -/
structure Near (B : Nat) (S : Nat) (A : Int) (P got plt : Nat) (x : Symbol) : Prop where
  s : S ≤ B
  lo : -(B : Int) ≤ A
  hi : A ≤ B
  p : P ≤ B
  got : got ≤ B
  plt : plt ≤ B
  slot : ∀ g, x.inGot = some g → g ≤ B
  entry : ∀ i, x.inPlt = some i → 16 * (1 + i) ≤ B

theorem load_lea {x z : UInt8} (hx : x = 0x48 ∨ x = 0x4c) (hz : z.toNat % 8 = 5) (hz2 : z.toNat < 64) : ∃ i, movToLea x 0x8b z = some i ∧ i.length = 3 := by
  have : z = 5 ∨ z = 13 ∨ z = 21 ∨ z = 29 ∨ z = 37 ∨ z = 45 ∨ z = 53 ∨ z = 61 := by
    simp only [← UInt8.toNat_inj]
    simp only [show (5 : UInt8).toNat = 5 from rfl, show (13 : UInt8).toNat = 13 from rfl, show (21 : UInt8).toNat = 21 from rfl, show (29 : UInt8).toNat = 29 from rfl,
      show (37 : UInt8).toNat = 37 from rfl, show (45 : UInt8).toNat = 45 from rfl, show (53 : UInt8).toNat = 53 from rfl, show (61 : UInt8).toNat = 61 from rfl]
    omega
  rcases hx with rfl | rfl <;> rcases this with rfl | rfl | rfl | rfl | rfl | rfl | rfl | rfl <;> exact ⟨_, rfl, rfl⟩

/-- a relocation of a supported kind, after the scan, is applied -/
theorem relocPatch_progress {t : SymbolTable} {data : Bytes} {rel0 rel : Rela} {y : SymbolRef} (h : Applicable t data rel0 y)
    (hs : (rel, y) = scannedReloc t (rel0, y)) {s : Symbol} (hy : t.get y = some s) {x : Symbol} (hdyn : x.dynamic = s.dynamic) (hinfo : x.sym.st_info = s.sym.st_info)
    (hgot : UsesGot rel0 → x.inGot.isSome) (hplt : UsesPlt rel0 → Imported t y → x.inPlt.isSome) {dt : SymbolTable} {B S ca got plt : Nat}
    (hS : symAddr x dt = some S) (hN : Near B S rel0.r_addend (ca + rel0.r_offset) got plt x) (hB : 4 * B < 2 ^ 31) :
    ∃ st bs, relocPatch ca data rel x dt got plt = .ok (st, bs) ∧ st + bs.length ≤ data.length ∧
      (bs.length = 0 ∨ ((relField rel0).1 ≤ st ∧ st + bs.length ≤ (relField rel0).1 + (relField rel0).2)) := by
  obtain ⟨n1, n2, n3, n4, n5, n6, n7, n8⟩ := hN
  have himp : Imported t y ↔ x.dynamic ≠ none := by
    unfold Imported
    rw [hdyn]
    constructor
    · rintro ⟨s', h1, h2⟩ h3
      rw [hy] at h1; cases h1
      rw [h3] at h2; cases h2
    · intro h3
      exact ⟨s, hy, Option.isSome_iff_ne_none.2 h3⟩
  have hoff : rel.r_offset = rel0.r_offset ∧ rel.r_addend = rel0.r_addend ∧
      relType rel = if relType rel0 = 4 ∧ ¬ Imported t y then 2 else relType rel0 := by
    unfold scannedReloc at hs
    by_cases hc : UsesPlt rel0 ∧ ¬ Imported t y
    · simp only [if_pos hc, Prod.mk.injEq, and_true] at hs
      have hc' : relType rel0 = 4 ∧ ¬ Imported t y := hc
      rw [if_pos hc', hs]
      refine ⟨rfl, rfl, ?_⟩
      unfold relType
      simp only
      omega
    · simp only [if_neg hc, Prod.mk.injEq, and_true] at hs
      have hc' : ¬ (relType rel0 = 4 ∧ ¬ Imported t y) := hc
      rw [if_neg hc', hs]
      exact ⟨rfl, rfl, rfl⟩
  obtain ⟨ho, ha, hty⟩ := hoff
  have hr : r_type rel.r_info = relType rel := rfl
  have hsm : Small S rel.r_addend (ca + rel.r_offset) got plt x := by
    rw [ha, ho]
    refine ⟨by omega, by omega, by omega, by omega, by omega, by omega, fun g hg => ?_, fun i hi => ?_⟩
    · have := n7 g hg; omega
    · have := n8 i hi; omega
  have done : ∀ plan, planOf x (r_type rel.r_info) S rel.r_addend (ca + rel.r_offset : Nat) got plt = some plan → plan.InRange (r_type rel.r_info) →
      ∀ st bs, planPatch data rel.r_offset plan = .ok (st, bs) → relocPatch ca data rel x dt got plt = .ok (st, bs) := by
    intro plan h1 h2 st bs h3
    rw [relocPatch, relocPlan_complete hS hsm h1 h2]
    exact h3
  rw [hr, ha, ho] at done
  have hin := h.inside
  have hfield : relField rel0 = if relType rel0 = 0 then (rel0.r_offset, 0) else if relType rel0 = 1 then (rel0.r_offset, 8)
    else if relType rel0 = 41 then (rel0.r_offset - 2, 6) else if relType rel0 = 42 then (rel0.r_offset - 3, 7) else (rel0.r_offset, 4) := rfl
  have htls : x.isTls = true ↔ s.sym.st_info % 16 = 6 := by
    unfold Symbol.isTls
    rw [hinfo]
    simp [stType, STT_TLS]
  have tlsInfo : ThreadLocal t y → s.sym.st_info % 16 = 6 := by
    rintro ⟨s', h1, h2⟩
    rw [hy] at h1; cases h1
    exact h2
  have plain4 : ∀ v, relType rel0 ∉ [0, 1] → planOf x (relType rel) S rel0.r_addend (ca + rel0.r_offset : Nat) got plt = some (.plain 4 v) →
      -2147483648 ≤ v → v < 2147483648 → ∃ st bs, relocPatch ca data rel x dt got plt = .ok (st, bs) ∧ st + bs.length ≤ data.length ∧
      (bs.length = 0 ∨ ((relField rel0).1 ≤ st ∧ st + bs.length ≤ (relField rel0).1 + (relField rel0).2)) := by
    intro v hne hp h1 h2
    have hl : (leInt 4 v).length = 4 := by simp
    refine ⟨_, _, done _ hp ⟨by simp, fun _ => ⟨rfl, fun _ => ⟨h1, h2⟩⟩⟩ _ _ rfl, ?_, .inr ?_⟩
    · rw [hl]
      simp only [List.mem_cons, List.not_mem_nil, or_false, not_or] at hne
      rw [hfield, if_neg hne.1, if_neg hne.2] at hin
      split at hin
      · simp only at hin; omega
      · split at hin <;> simp only at hin <;> omega
    · rw [hl]
      simp only [List.mem_cons, List.not_mem_nil, or_false, not_or] at hne
      rw [hfield, if_neg hne.1, if_neg hne.2]
      split
      · simp only; omega
      · split <;> simp only <;> omega
  have slot : UsesGot rel0 → ∃ g, x.inGot = some g ∧ g ≤ B := by
    intro hu
    obtain ⟨g, hg⟩ := Option.isSome_iff_exists.1 (hgot hu)
    exact ⟨g, hg, n7 g hg⟩
  have bridge : ∀ n : Nat, relType rel0 = n → (n ≠ 4 ∨ Imported t y) → relType rel = n := by
    intro n h1 h2
    rw [hty, if_neg]
    · exact h1
    · rintro ⟨h3, h4⟩
      rcases h2 with h2 | h2
      · omega
      · exact h4 h2
  have gotPlain : UsesGot rel0 → relType rel0 ∉ [0, 1] →
      (∀ g : Nat, x.inGot = some g → planOf x (relType rel) S rel0.r_addend (ca + rel0.r_offset : Nat) got plt =
        some (.plain 4 ((g : Int) + got + rel0.r_addend - (ca + rel0.r_offset : Nat)))) →
      ∃ st bs, relocPatch ca data rel x dt got plt = .ok (st, bs) ∧ st + bs.length ≤ data.length ∧
      (bs.length = 0 ∨ ((relField rel0).1 ≤ st ∧ st + bs.length ≤ (relField rel0).1 + (relField rel0).2)) := by
    intro hu hne hg
    obtain ⟨g, h1, h2⟩ := slot hu
    exact plain4 _ hne (hg g h1) (by omega) (by omega)
  have hmem := h.type
  simp only [List.mem_cons, List.not_mem_nil, or_false] at hmem
  rcases hmem with e | e | e | e | e | e | e | e | e | e | e | e
  · -- none
    have e' := bridge 0 e (.inl (by decide))
    refine ⟨_, _, done .none (by rw [e']; rfl) trivial _ _ rfl, ?_, .inl rfl⟩
    simp
  · -- 64
    have e' := bridge 1 e (.inl (by decide))
    have hl : (leInt 8 ((S : Int) + rel0.r_addend)).length = 8 := by simp
    rw [hfield, if_neg (by omega), if_pos e] at hin
    simp only at hin
    refine ⟨_, _, done (.plain 8 ((S : Int) + rel0.r_addend)) (by rw [e']; rfl) ⟨fun _ => by omega, fun h => absurd rfl h⟩ _ _ rfl, by rw [hl]; exact hin, .inr ?_⟩
    rw [hfield, if_neg (by omega), if_pos e, hl]
    simp only
    omega
  · have e' := bridge 2 e (.inl (by decide))
    exact plain4 _ (by rw [e]; decide) (by rw [e']; rfl) (by omega) (by omega)
  · have e' := bridge 3 e (.inl (by decide))
    refine gotPlain (by unfold UsesGot; rw [e]; decide) (by rw [e]; decide) fun g hg => ?_
    rw [e']
    unfold planOf
    simp only [hg]
    rfl
  · -- PLT32
    by_cases hi : Imported t y
    · have e' := bridge 4 e (.inr hi)
      obtain ⟨i, hi⟩ := Option.isSome_iff_exists.1 (hplt e hi)
      have := n8 i hi
      refine plain4 ((plt + 16 * (1 + i) : Nat) + rel0.r_addend - (ca + rel0.r_offset : Nat)) (by rw [e]; decide) ?_ (by omega) (by omega)
      rw [e']
      unfold planOf
      simp only [hi]
      rfl
    · have e' : relType rel = 2 := by rw [hty, if_pos ⟨e, hi⟩]
      exact plain4 _ (by rw [e]; decide) (by rw [e']; rfl) (by omega) (by omega)
  · have e' := bridge 10 e (.inl (by decide))
    exact plain4 _ (by rw [e]; decide) (by rw [e']; rfl) (by omega) (by omega)
  · have e' := bridge 11 e (.inl (by decide))
    exact plain4 _ (by rw [e]; decide) (by rw [e']; rfl) (by omega) (by omega)
  · have e' := bridge 19 e (.inl (by decide))
    have ht := h.tls (.inl e)
    refine gotPlain (by unfold UsesGot; rw [e]; decide) (by rw [e]; decide) fun g hg => ?_
    rw [e']
    unfold planOf
    simp only [hg, htls.2 (tlsInfo ht)]
    rfl
  · have e' := bridge 22 e (.inl (by decide))
    have ht := h.tls (.inr e)
    refine gotPlain (by unfold UsesGot; rw [e]; decide) (by rw [e]; decide) fun g hg => ?_
    rw [e']
    unfold planOf
    simp only [hg, htls.2 (tlsInfo ht)]
    rfl
  · have e' := bridge 23 e (.inl (by decide))
    exact plain4 _ (by rw [e]; decide) (by rw [e']; rfl) (by omega) (by omega)
  · -- GOTPCRELX
    have e' := bridge 41 e (.inl (by decide))
    by_cases hi : Imported t y
    · have hne := himp.1 hi
      refine gotPlain (by unfold UsesGot; rw [e]; decide) (by rw [e]; decide) fun g hg => ?_
      rw [e']
      unfold planOf
      simp only [hg, if_neg hne]
      rfl
    · have hno : x.dynamic = none := by
        cases hx : x.dynamic with
        | none => rfl
        | some d => exact absurd (himp.2 (by rw [hx]; simp)) hi
      obtain ⟨c1, c2, c3⟩ := h.call e hi
      rw [hfield, if_neg (by omega), if_neg (by omega), if_pos e] at hin
      simp only at hin
      have hpl : planOf x (relType rel) S rel0.r_addend (ca + rel0.r_offset : Nat) got plt = some (.callJmp ((S : Int) + rel0.r_addend - (ca + rel0.r_offset : Nat))) := by
        rw [e']
        unfold planOf
        simp only [hno]
        rfl
      have hrng : (Plan.callJmp ((S : Int) + rel0.r_addend - (ca + rel0.r_offset : Nat))).InRange (relType rel) := ⟨by omega, by omega⟩
      rw [hfield, if_neg (by omega), if_neg (by omega), if_pos e]
      rcases c3 with c3 | c3
      · refine ⟨rel0.r_offset - 2, [0xe8] ++ leInt 4 ((S : Int) + rel0.r_addend - (ca + rel0.r_offset : Nat)) ++ [0x90], done _ hpl hrng _ _ ?_, ?_, .inr ⟨?_, ?_⟩⟩
        · show patchCallJmp _ _ _ = _
          unfold patchCallJmp
          rw [if_neg (by omega), c2, c3]
          rfl
        all_goals simp
        all_goals omega
      · refine ⟨rel0.r_offset - 2, [0xe9] ++ leInt 4 ((S : Int) + rel0.r_addend - (ca + rel0.r_offset : Nat)) ++ [0x90], done _ hpl hrng _ _ ?_, ?_, .inr ⟨?_, ?_⟩⟩
        · show patchCallJmp _ _ _ = _
          unfold patchCallJmp
          rw [if_neg (by omega), c2, c3]
          rfl
        all_goals simp
        all_goals omega
  · -- REX_GOTPCRELX
    have e' := bridge 42 e (.inl (by decide))
    by_cases hi : Imported t y
    · have hne := himp.1 hi
      refine gotPlain (by unfold UsesGot; rw [e]; decide) (by rw [e]; decide) fun g hg => ?_
      rw [e']
      unfold planOf
      simp only [hg, if_neg hne]
      rfl
    · have hno : x.dynamic = none := by
        cases hx : x.dynamic with
        | none => rfl
        | some d => exact absurd (himp.2 (by rw [hx]; simp)) hi
      obtain ⟨c1, c2, c3, z, c4, c5, c6⟩ := h.load e hi
      rw [hfield, if_neg (by omega), if_neg (by omega), if_neg (by omega), if_pos e] at hin
      simp only at hin
      have hpl : planOf x (relType rel) S rel0.r_addend (ca + rel0.r_offset : Nat) got plt = some (.movLea ((S : Int) + rel0.r_addend - (ca + rel0.r_offset : Nat))) := by
        rw [e']
        unfold planOf
        simp only [hno]
        rfl
      have hrng : (Plan.movLea ((S : Int) + rel0.r_addend - (ca + rel0.r_offset : Nat))).InRange (relType rel) := ⟨by omega, by omega⟩
      rw [hfield, if_neg (by omega), if_neg (by omega), if_neg (by omega), if_pos e]
      obtain ⟨a, ca', hca⟩ : ∃ a : UInt8, data[rel0.r_offset - 3]? = some a ∧ (a = 0x48 ∨ a = 0x4c) := by
        rcases c2 with c2 | c2
        · exact ⟨_, c2, .inl rfl⟩
        · exact ⟨_, c2, .inr rfl⟩
      obtain ⟨ins, hins, hil⟩ := load_lea hca c5 c6
      refine ⟨rel0.r_offset - 3, ins ++ leInt 4 ((S : Int) + rel0.r_addend - (ca + rel0.r_offset : Nat)), done _ hpl hrng _ _ ?_, ?_, .inr ⟨?_, ?_⟩⟩
      · show patchMovLea _ _ _ = _
        unfold patchMovLea
        rw [if_neg (by omega), ca', c3, c4]
        simp only
        rw [hins]
      all_goals simp [hil]
      all_goals omega

/-! ### The slots of a symbol -/

theorem get?_mem {κ β : Type} [DecidableEq κ] {l : List (κ × β)} {k : κ} {b : β} (h : AMap.get? l k = some b) : (k, b) ∈ l := by
  induction l with
  | nil => cases h
  | cons e l ih =>
    obtain ⟨k', b'⟩ := e
    rw [AMap.get?] at h
    split at h
    · rename_i e; cases h; subst e; simp
    · exact List.mem_cons_of_mem _ (ih h)

theorem get?_isSome {κ β : Type} [DecidableEq κ] {l : List (κ × β)} {k : κ} (h : k ∈ l.map (·.1)) : (AMap.get? l k).isSome := by
  induction l with
  | nil => cases h
  | cons e l ih =>
    obtain ⟨k', b'⟩ := e
    rw [AMap.get?]
    split
    · rfl
    · rename_i hne
      rw [List.map_cons, List.mem_cons] at h
      exact ih (h.resolve_left fun e => hne e.symm)

/-- the slots a symbol got are within the tables, and a symbol that needs a slot has one -/
theorem Writer.Early.slots_of (st : Early sched w) (hv : sched.Valid) (h : Hist opts ops w) {r : SymbolRef} {s : Symbol} (hs : w.symtab.get r = some s) :
    ∃ x, st.dynrel.symtab.get r = some x ∧ x.dynamic = s.dynamic ∧ x.sym = s.sym ∧
      (∀ g, x.inGot = some g → g ≤ w.span) ∧ (∀ i, x.inPlt = some i → 16 * (1 + i) ≤ w.span) ∧
      (∀ rel, (rel, r) ∈ relocsOf w → UsesGot rel → x.inGot.isSome) ∧
      (∀ rel, (rel, r) ∈ relocsOf w → UsesPlt rel → Imported w.symtab r → x.inPlt.isSome) := by
  obtain ⟨ks, gs, hI, _⟩ := st.scan h
  have L := st.linkRels hv h
  obtain ⟨g1, g2, g3⟩ := st.got_le h
  have tab : st.scanned.symtab.view unscan = w.symtab.view unscan := hI.tab
  obtain ⟨y, hy, ey⟩ := SymbolTable.view_get_some tab.symm hs
  obtain ⟨x, hx, ex⟩ := SymbolTable.view_get_some L.tab.symm hy
  have k1 : x.inGot = y.inGot := (congrArg Symbol.inGot ex).symm
  have k2 : x.inPlt = y.inPlt := (congrArg Symbol.inPlt ex).symm
  have k3 : x.dynamic = s.dynamic := (congrArg Symbol.dynamic ex).symm.trans (congrArg Symbol.dynamic ey).symm
  have k4 : x.sym = s.sym := (congrArg Symbol.sym ex).symm.trans (congrArg Symbol.sym ey).symm
  have hw : 64 * (relocsOf w).length + 0x200000 ≤ w.span := by unfold Writer.span Writer.weight; omega
  have q1 := hI.inGot r y hy
  have q2 := (hI.inPlt r y hy).1
  refine ⟨x, hx, k3, k4, ?_, ?_, ?_, ?_⟩
  · intro g hg
    rw [k1, q1] at hg
    obtain ⟨e, he, rfl⟩ := Option.map_eq_some_iff.1 hg
    have := (Packed.bounds hI.packed).2 _ (get?_mem he)
    simp only at this
    have h2 : e.1 ≤ st.scanned.gotLen := by show e.1 ≤ _; omega
    omega
  · intro i hi
    rw [k2, q2] at hi
    have hp : st.scanned.plt = ks.zipIdx := hI.plt
    have hi' : AMap.get? st.scanned.plt r = some i := hi
    rw [hp] at hi'
    have := List.snd_lt_of_mem_zipIdx (get?_mem hi')
    rw [hp, List.length_zipIdx] at g3
    simp only at this
    omega
  · intro rel hm hu
    rw [k1, q1, Option.isSome_map]
    exact get?_isSome ((hI.users r).2 ⟨rel, hm, hu⟩)
  · intro rel hm hu hi
    rw [k2, q2]
    have hp : st.scanned.plt = ks.zipIdx := hI.plt
    show (AMap.get? st.scanned.plt r).isSome
    rw [hp]
    refine get?_isSome ?_
    rw [List.zipIdx_map_fst]
    exact (hI.calls r).2 ⟨rel, hm, hu, hi⟩

/-! ### The dynamic symbols -/

/-- no section is beyond the end of the image -/
theorem Writer.Mid.sec_le (st : Mid sched w) (hv : sched.Valid) (h : Hist opts ops w) (hf : FlagsOk ops) (hl : w.dynsym.symbols.length < 2 ^ 32)
    {u : Section} (hu : u ∈ st.special.sections) (hn : u.ptr ≠ P.null) : u.sh.sh_addr ≤ w.span := by
  obtain ⟨i, hi⟩ := List.getElem?_of_mem hu
  obtain ⟨s0, a, p, q, T⟩ := st.trip hv h.secFacts h.untouched hi
  have hsh : u.sh = p.sh := (congrArg (·.2.2.2.2) T.named.1).trans (congrArg (·.2.2.2.2) T.patch.1)
  have hpt : u.ptr = p.ptr := (congrArg (·.1) T.named.1).trans (congrArg (·.1) T.patch.1)
  rw [hsh]
  exact st.addr_le hv h hf hl T.placed (st.pos hv h T.placed (by rw [← hpt]; exact hn))

theorem updateObject_get (t : SymbolTable) (a i : Nat) {r : SymbolRef} {y : Symbol} (h : t.get r = some y) :
    ∃ x, (t.updateObjectSymbols a i).get r = some x ∧ x.sym.st_value ≤ y.sym.st_value + a := by
  cases r with
  | named k =>
    have e : (t.updateObjectSymbols a i).symbols = t.symbols.map fun e => (e.1, if e.2.isObject then
        { e.2 with sym := { e.2.sym with st_value := e.2.sym.st_value + a, st_shndx := u16 i } } else e.2) := by
      unfold SymbolTable.updateObjectSymbols
      apply List.map_congr_left
      intro e _
      simp only
      split <;> rfl
    have h' : AMap.get? t.symbols k = some y := h
    refine ⟨if y.isObject then { y with sym := { y.sym with st_value := y.sym.st_value + a, st_shndx := u16 i } } else y, ?_, ?_⟩
    · show AMap.get? (t.updateObjectSymbols a i).symbols k = _
      rw [e, AMap.get?_map_value t.symbols (fun s : Symbol => if s.isObject then
        { s with sym := { s.sym with st_value := s.sym.st_value + a, st_shndx := u16 i } } else s), h']
      rfl
    · split
      · exact Nat.le_refl _
      · omega
  | «section» k j => exact ⟨y, h, by omega⟩

/-- the value of a dynamic symbol when relocations are applied: where its copy is -/
theorem Writer.Mid.dyn_value (st : Mid sched w) (hv : sched.Valid) (h : Hist opts ops w) (hf : FlagsOk ops) (hd : NamedDyns ops) (hcl : SymsClean ops)
    (hds : w.dynstr.totalLen < 2 ^ 32) (hl : w.dynsym.symbols.length < 2 ^ 32) {r : SymbolRef} {s : Symbol} (hs : w.dynsym.get r = some s) :
    ∃ x, st.special.dynsym.get r = some x ∧ x.sym.st_value ≤ 2 * w.span := by
  obtain ⟨ns, nd, T⟩ := h.tableFacts
  have L := st.toEarly.linkRels hv h
  obtain ⟨y, hy, ey⟩ := SymbolTable.view_get_some L.dyn.symm hs
  have hyv : y.sym.st_value ≤ w.weight := by
    rcases L.value r y hy with ⟨e, he, _, e1⟩ | ⟨_, s', hs', e1⟩
    · rw [e1]
      have h1 := (copies_bounds (a := 0) (ms := st.imports)).2 e he
      have h2 := st.toEarly.copies_le hv T hd hcl hds
      omega
    · rw [e1, h.dynValues hs']
      omega
  have hsp := st.hspecial
  simp only [handleSpecialSymbols, bind_ok, Prod.exists] at hsp
  obtain ⟨_, _, _, _, _, _, t1, secs, h1, cr, hcr, e⟩ := hsp
  have e := Except.ok.inj e
  have hdy : st.special.dynsym = st.dynrel.dynsym.updateObjectSymbols cr.sh.sh_addr cr.index := by
    rw [← e]
    show SymbolTable.updateObjectSymbols _ _ _ = _
    rw [(patchPlt_post st.hpatch).2, st.toEarly.entries_rest]
  have hsec : st.special.sec P.copyRel = .ok cr := by rw [← e]; exact hcr
  obtain ⟨hm, hptr⟩ := sec_ok hsec
  have ha := st.sec_le hv h hf hl hm (by rw [hptr]; decide)
  obtain ⟨x, hx, hxv⟩ := updateObject_get st.dynrel.dynsym cr.sh.sh_addr cr.index hy
  rw [hdy]
  refine ⟨x, hx, ?_⟩
  have : w.weight ≤ w.span := by unfold Writer.span; omega
  omega

end Dld
