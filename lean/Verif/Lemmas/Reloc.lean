import Verif.Model.Reloc
import Verif.Lemmas.Except
import Verif.Lemmas.Bytes
/-! # `apply_relocation` as "compute a patch, write it" -/
namespace Dld

theorem i64_ok {x y : Int} : i64 x = .ok y ↔ y = x ∧ -9223372036854775808 ≤ x ∧ x < 9223372036854775808 := by
  unfold i64; split
  · next h => simp [h, eq_comm]
  · next h => simp; intro _; omega

theorem i32_ok {x y : Int} : i32 x = .ok y ↔ y = x ∧ -2147483648 ≤ x ∧ x < 2147483648 := by
  unfold i32; split
  · next h => simp [h, eq_comm]
  · next h => simp; intro _; omega

theorem i64_cases (x : Int) : i64 x = .ok x ∨ i64 x = .error .panic := by
  unfold i64; split <;> simp

theorem i32_cases (x : Int) : i32 x = .ok x ∨ i32 x = .error .panic := by
  unfold i32; split <;> simp

/-- where the patch of a relocation starts and how long it is -/
def patchRegion (rel : Rela) (symbol : Symbol) : Nat × Nat :=
  let ty := r_type rel.r_info
  if ty = R_X86_64_NONE then (0, 0)
  else if ty = R_X86_64_64 then (rel.r_offset, 8)
  else if ty = R_X86_64_GOTPCRELX ∧ symbol.dynamic = none then (rel.r_offset - 2, 6)
  else if ty = R_X86_64_REX_GOTPCRELX ∧ symbol.dynamic = none then (rel.r_offset - 3, 7)
  else (rel.r_offset, 4)

/-- the bytes a call/jump relaxation writes -/
def patchCallJmp (data : Bytes) (offset : Nat) (value : Int) : M (Nat × Bytes) :=
  if offset < 2 then .error .panic
  else
    match data[offset - 2]?, data[offset - 1]? with
    | some 0xff, some 0x15 => .ok (offset - 2, [0xe8] ++ leInt 4 value ++ [0x90])
    | some 0xff, some 0x25 => .ok (offset - 2, [0xe9] ++ leInt 4 value ++ [0x90])
    | _, _ => .error .panic

/-- the bytes a load relaxation writes -/
def patchMovLea (data : Bytes) (offset : Nat) (value : Int) : M (Nat × Bytes) :=
  if offset < 3 then .error .panic
  else
    match data[offset - 3]?, data[offset - 2]?, data[offset - 1]? with
    | some x, some y, some z =>
      match movToLea x y z with
      | some instr => .ok (offset - 3, instr ++ leInt 4 value)
      | none => .error .panic
    | _, _, _ => .error .panic

/-- the value of a relocation and whether it is written by relaxing an instruction -/
inductive Plan where
  | none
  | plain (w : Nat) (v : Int)
  | callJmp (v : Int)
  | movLea (v : Int)

/-- what `apply_relocation` decides before looking at the data -/
def relocPlan (chunkAddress : Nat) (rel : Rela) (symbol : Symbol) (dynTable : SymbolTable)
    (gotAddress pltAddress : Nat) : M Plan := do
  let s ← relocS symbol dynTable
  let a := rel.r_addend
  let p ← i64 (chunkAddress + rel.r_offset : Nat)
  let got ← i64 gotAddress
  let ty := r_type rel.r_info
  if ty = R_X86_64_NONE then .ok .none
  else if ty = R_X86_64_64 then do
    let v ← i64 (s + a)
    .ok (.plain 8 v)
  else if ty = R_X86_64_32 then do
    let v ← i64 (s + a)
    let v ← i32 v
    .ok (.plain 4 v)
  else if ty = R_X86_64_32S then do
    let v ← i64 (s + a)
    .ok (.plain 4 v)
  else if ty = R_X86_64_PC32 then do
    let v ← i64 (s + a)
    let v ← i64 (v - p)
    let v ← i32 v
    .ok (.plain 4 v)
  else if ty = R_X86_64_GOT32 then do
    let v ← gotDisp symbol got a p
    let v ← i32 v
    .ok (.plain 4 v)
  else if ty = R_X86_64_GOTPCRELX then
    if symbol.dynamic = .none then do
      let v ← i64 (s + a)
      let v ← i64 (v - p)
      let v ← i32 v
      .ok (.callJmp v)
    else do
      let v ← gotDisp symbol got a p
      let v ← i32 v
      .ok (.plain 4 v)
  else if ty = R_X86_64_REX_GOTPCRELX then
    if symbol.dynamic = .none then do
      let v ← i64 (s + a)
      let v ← i64 (v - p)
      let v ← i32 v
      .ok (.movLea v)
    else do
      let v ← gotDisp symbol got a p
      let v ← i32 v
      .ok (.plain 4 v)
  else if ty = R_X86_64_TLSGD ∨ ty = R_X86_64_GOTTPOFF then
    if symbol.isTls then do
      let v ← gotDisp symbol got a p
      let v ← i32 v
      .ok (.plain 4 v)
    else .error .panic
  else if ty = R_X86_64_TPOFF32 then do
    let v ← i64 (s + a)
    let v ← i32 v
    .ok (.plain 4 v)
  else if ty = R_X86_64_PLT32 then do
    let i ← unwrap symbol.inPlt
    let l ← pltEntryAddr pltAddress i
    let v ← i64 (l + a)
    let v ← i64 (v - p)
    let v ← i32 v
    .ok (.plain 4 v)
  else .error .panic

/-- the patch of a plan -/
def planPatch (data : Bytes) (offset : Nat) : Plan → M (Nat × Bytes)
  | .none => .ok (0, [])
  | .plain w v => .ok (offset, leInt w v)
  | .callJmp v => patchCallJmp data offset v
  | .movLea v => patchMovLea data offset v

/-- carry out a plan -/
def planApply (data : Bytes) (offset : Nat) : Plan → M Bytes
  | .none => .ok data
  | .plain w v => writeAt data offset (leInt w v)
  | .callJmp v => relaxCallJmp data offset v
  | .movLea v => relaxMovLea data offset v

theorem bind_ite {ε α β : Type} (c : Prop) [Decidable c] (x y : Except ε α) (f : α → Except ε β) :
    (if c then x else y) >>= f = if c then x >>= f else y >>= f := by
  split <;> rfl

theorem bind_assoc' {ε α β γ : Type} (x : Except ε α) (f : α → Except ε β) (g : β → Except ε γ) :
    x >>= f >>= g = x >>= fun a => f a >>= g := by
  cases x <;> rfl

theorem ok_bind {ε α β : Type} (a : α) (f : α → Except ε β) : (Except.ok a : Except ε α) >>= f = f a := rfl

theorem error_bind {ε α β : Type} (e : ε) (f : α → Except ε β) :
    (Except.error e : Except ε α) >>= f = .error e := rfl

theorem applyRelocation_eq (ca : Nat) (data : Bytes) (rel : Rela) (symbol : Symbol) (dt : SymbolTable)
    (got plt : Nat) : applyRelocation ca data rel symbol dt got plt =
      relocPlan ca rel symbol dt got plt >>= planApply data rel.r_offset := by
  unfold applyRelocation relocPlan
  simp only [bind_assoc', bind_ite, ok_bind, error_bind, planApply]

theorem relaxCallJmp_eq (data : Bytes) (off : Nat) (v : Int) :
    relaxCallJmp data off v = patchCallJmp data off v >>= fun p => writeAt data p.1 p.2 := by
  unfold relaxCallJmp patchCallJmp
  rw [bind_ite]
  split
  · rfl
  · split <;> simp_all [bind, Except.bind]

theorem relaxMovLea_eq (data : Bytes) (off : Nat) (v : Int) :
    relaxMovLea data off v = patchMovLea data off v >>= fun p => writeAt data p.1 p.2 := by
  unfold relaxMovLea patchMovLea
  rw [bind_ite]
  split
  · rfl
  · split
    · next h1 h2 h3 =>
      simp only [h1, h2, h3]
      cases movToLea _ _ _ <;> rfl
    · simp_all [bind, Except.bind]

/-- the address a relocation's symbol stands for: the copy made for an undefined symbol that a shared
library provides, the symbol's own value otherwise -/
def symAddr (symbol : Symbol) (dynTable : SymbolTable) : Option Nat :=
  if symbol.isUndefined = true ∧ symbol.dynamic ≠ none then
    (symbol.dynamic.bind dynTable.get).map (·.sym.st_value)
  else some symbol.sym.st_value

theorem relocS_ok {symbol : Symbol} {dt : SymbolTable} {s : Int} :
    relocS symbol dt = .ok s ↔ ∃ S, symAddr symbol dt = some S ∧ s = S ∧ S < 9223372036854775808 := by
  unfold relocS symAddr
  cases hd : symbol.dynamic with
  | none => simp [i64_ok]; omega
  | some d =>
    cases hu : symbol.isUndefined with
    | false => simp [i64_ok]; omega
    | true =>
      simp only [if_true, bind_ok, unwrap_ok, i64_ok]
      constructor
      · rintro ⟨a, h1, h2, h3, h4⟩
        exact ⟨a.sym.st_value, by simp [h1], h2, by omega⟩
      · rintro ⟨S, h1, h2, h3⟩
        simp at h1
        obtain ⟨a, h4, h5⟩ := h1
        exact ⟨a, h4, by omega, by omega, by omega⟩

theorem gotDisp_ok {symbol : Symbol} {got a p v : Int} (h : gotDisp symbol got a p = .ok v) :
    ∃ g, symbol.inGot = some g ∧ v = g + got + a - p := by
  simp only [gotDisp, bind_ok, unwrap_ok, i64_ok] at h
  obtain ⟨g, hg, _, ⟨rfl, _⟩, _, ⟨rfl, _⟩, _, ⟨rfl, _⟩, rfl, _⟩ := h
  exact ⟨g, hg, rfl⟩

/-- the plan of a relocation, over unbounded integers -/
def planOf (symbol : Symbol) (ty : Nat) (S A P GOT : Int) (plt : Nat) : Option Plan :=
  let g (k : Int → Plan) : Option Plan := symbol.inGot.map fun g : Nat => k ((g : Int) + GOT + A - P)
  if ty = R_X86_64_NONE then some .none
  else if ty = R_X86_64_64 then some (.plain 8 (S + A))
  else if ty = R_X86_64_32 then some (.plain 4 (S + A))
  else if ty = R_X86_64_32S then some (.plain 4 (S + A))
  else if ty = R_X86_64_PC32 then some (.plain 4 (S + A - P))
  else if ty = R_X86_64_GOT32 then g (.plain 4)
  else if ty = R_X86_64_GOTPCRELX then
    if symbol.dynamic = none then some (.callJmp (S + A - P)) else g (.plain 4)
  else if ty = R_X86_64_REX_GOTPCRELX then
    if symbol.dynamic = none then some (.movLea (S + A - P)) else g (.plain 4)
  else if ty = R_X86_64_TLSGD ∨ ty = R_X86_64_GOTTPOFF then
    if symbol.isTls then g (.plain 4) else none
  else if ty = R_X86_64_TPOFF32 then some (.plain 4 (S + A))
  else if ty = R_X86_64_PLT32 then
    symbol.inPlt.map fun i => .plain 4 ((plt + 16 * (1 + i) : Nat) + A - P)
  else none

/-- the value of a plan is in range -/
def Plan.InRange (ty : Nat) : Plan → Prop
  | .none => True
  | .plain w v => (w = 8 → -9223372036854775808 ≤ v ∧ v < 9223372036854775808) ∧
      (w ≠ 8 → w = 4 ∧ (ty ≠ R_X86_64_32S → -2147483648 ≤ v ∧ v < 2147483648))
  | .callJmp v => -2147483648 ≤ v ∧ v < 2147483648
  | .movLea v => -2147483648 ≤ v ∧ v < 2147483648

theorem relocPlan_ok {ca : Nat} {rel : Rela} {symbol : Symbol} {dt : SymbolTable} {got plt : Nat}
    {plan : Plan} (h : relocPlan ca rel symbol dt got plt = .ok plan) :
    ∃ S : Nat, symAddr symbol dt = some S ∧
      planOf symbol (r_type rel.r_info) S rel.r_addend (ca + rel.r_offset : Nat) got plt = some plan ∧
      plan.InRange (r_type rel.r_info) := by
  unfold relocPlan at h
  simp only [bind_ok] at h
  obtain ⟨s, hs, p, hp, g, hg, h⟩ := h
  obtain ⟨S, hS, rfl, hS63⟩ := relocS_ok.1 hs
  obtain ⟨rfl, -⟩ := i64_ok.1 hp
  obtain ⟨rfl, -⟩ := i64_ok.1 hg
  refine ⟨S, hS, ?_⟩
  generalize hty : r_type rel.r_info = ty at h ⊢
  unfold planOf
  have hgot : ∀ {k : Int → Plan} {v : Int}, gotDisp symbol got rel.r_addend (ca + rel.r_offset : Nat) = .ok v →
      (symbol.inGot.map fun g : Nat => k ((g : Int) + got + rel.r_addend - (ca + rel.r_offset : Nat))) = some (k v) := by
    intro k v hv
    obtain ⟨g, h1, rfl⟩ := gotDisp_ok hv
    simp [h1]
  by_cases h0 : ty = R_X86_64_NONE
  · rw [if_pos h0] at h ⊢; cases h; exact ⟨rfl, trivial⟩
  rw [if_neg h0] at h ⊢
  by_cases h1 : ty = R_X86_64_64
  · rw [if_pos h1] at h ⊢
    simp only [bind_ok, i64_ok] at h
    obtain ⟨_, ⟨rfl, h2⟩, h⟩ := h
    cases h
    exact ⟨rfl, fun _ => h2, fun h => absurd rfl h⟩
  rw [if_neg h1] at h ⊢
  by_cases h2 : ty = R_X86_64_32
  · rw [if_pos h2] at h ⊢
    simp only [bind_ok, i64_ok, i32_ok] at h
    obtain ⟨_, ⟨rfl, -⟩, _, ⟨rfl, h3⟩, h⟩ := h
    cases h
    exact ⟨rfl, by simp, fun _ => ⟨rfl, fun _ => h3⟩⟩
  rw [if_neg h2] at h ⊢
  by_cases h3 : ty = R_X86_64_32S
  · rw [if_pos h3] at h ⊢
    simp only [bind_ok, i64_ok] at h
    obtain ⟨_, ⟨rfl, -⟩, h⟩ := h
    cases h
    exact ⟨rfl, by simp, fun _ => ⟨rfl, fun h => absurd h3 h⟩⟩
  rw [if_neg h3] at h ⊢
  by_cases h4 : ty = R_X86_64_PC32
  · rw [if_pos h4] at h ⊢
    simp only [bind_ok, i64_ok, i32_ok] at h
    obtain ⟨_, ⟨rfl, -⟩, _, ⟨rfl, -⟩, _, ⟨rfl, h3⟩, h⟩ := h
    cases h
    exact ⟨rfl, by simp, fun _ => ⟨rfl, fun _ => h3⟩⟩
  rw [if_neg h4] at h ⊢
  by_cases h5 : ty = R_X86_64_GOT32
  · rw [if_pos h5] at h ⊢
    simp only [bind_ok, i32_ok] at h
    obtain ⟨v, hv, _, ⟨rfl, h3⟩, h⟩ := h
    cases h
    exact ⟨hgot hv, by simp, fun _ => ⟨rfl, fun _ => h3⟩⟩
  rw [if_neg h5] at h ⊢
  by_cases h6 : ty = R_X86_64_GOTPCRELX
  · rw [if_pos h6] at h ⊢
    by_cases hd : symbol.dynamic = none
    · rw [if_pos hd] at h ⊢
      simp only [bind_ok, i64_ok, i32_ok] at h
      obtain ⟨_, ⟨rfl, -⟩, _, ⟨rfl, -⟩, _, ⟨rfl, h3⟩, h⟩ := h
      cases h
      exact ⟨rfl, h3⟩
    · rw [if_neg hd] at h ⊢
      simp only [bind_ok, i32_ok] at h
      obtain ⟨v, hv, _, ⟨rfl, h3⟩, h⟩ := h
      cases h
      exact ⟨hgot hv, by simp, fun _ => ⟨rfl, fun _ => h3⟩⟩
  rw [if_neg h6] at h ⊢
  by_cases h7 : ty = R_X86_64_REX_GOTPCRELX
  · rw [if_pos h7] at h ⊢
    by_cases hd : symbol.dynamic = none
    · rw [if_pos hd] at h ⊢
      simp only [bind_ok, i64_ok, i32_ok] at h
      obtain ⟨_, ⟨rfl, -⟩, _, ⟨rfl, -⟩, _, ⟨rfl, h3⟩, h⟩ := h
      cases h
      exact ⟨rfl, h3⟩
    · rw [if_neg hd] at h ⊢
      simp only [bind_ok, i32_ok] at h
      obtain ⟨v, hv, _, ⟨rfl, h3⟩, h⟩ := h
      cases h
      exact ⟨hgot hv, by simp, fun _ => ⟨rfl, fun _ => h3⟩⟩
  rw [if_neg h7] at h ⊢
  by_cases h8 : ty = R_X86_64_TLSGD ∨ ty = R_X86_64_GOTTPOFF
  · rw [if_pos h8] at h ⊢
    by_cases ht : symbol.isTls = true
    · rw [if_pos ht] at h ⊢
      simp only [bind_ok, i32_ok] at h
      obtain ⟨v, hv, _, ⟨rfl, h3⟩, h⟩ := h
      cases h
      exact ⟨hgot hv, by simp, fun _ => ⟨rfl, fun _ => h3⟩⟩
    · rw [if_neg ht] at h; cases h
  rw [if_neg h8] at h ⊢
  by_cases h9 : ty = R_X86_64_TPOFF32
  · rw [if_pos h9] at h ⊢
    simp only [bind_ok, i64_ok, i32_ok] at h
    obtain ⟨_, ⟨rfl, -⟩, _, ⟨rfl, h3⟩, h⟩ := h
    cases h
    exact ⟨rfl, by simp, fun _ => ⟨rfl, fun _ => h3⟩⟩
  rw [if_neg h9] at h ⊢
  by_cases h10 : ty = R_X86_64_PLT32
  · rw [if_pos h10] at h ⊢
    simp only [bind_ok, i64_ok, i32_ok, unwrap_ok, pltEntryAddr, PLT_ENTRY_SIZE] at h
    obtain ⟨i, hi, _, ⟨rfl, -⟩, _, ⟨rfl, -⟩, _, ⟨rfl, -⟩, _, ⟨rfl, h3⟩, h⟩ := h
    cases h
    exact ⟨by simp [hi], by simp, fun _ => ⟨rfl, fun _ => h3⟩⟩
  · rw [if_neg h10] at h; cases h

/-- every failure of `apply_relocation` is a panic -/
theorem relocPlan_error {ca : Nat} {rel : Rela} {symbol : Symbol} {dt : SymbolTable} {got plt : Nat}
    {e : Fail} (h : relocPlan ca rel symbol dt got plt = .error e) : e = .panic := by
  have hi64 : ∀ {x e}, i64 x = .error e → e = Fail.panic := by
    intro x e h; unfold i64 at h; split at h <;> simp_all
  have hi32 : ∀ {x e}, i32 x = .error e → e = Fail.panic := by
    intro x e h; unfold i32 at h; split at h <;> simp_all
  have hun : ∀ {α} {o : Option α} {e}, unwrap o = .error e → e = Fail.panic := by
    intro α o e h; cases o <;> simp_all [unwrap]
  have hb : ∀ {α β : Type} {x : M α} {f : α → M β} {e}, (x >>= f) = .error e →
      (∀ e, x = .error e → e = Fail.panic) → (∀ a e, f a = .error e → e = Fail.panic) → e = .panic := by
    intro α β x f e h h1 h2
    cases x with
    | error e' => cases h; exact h1 _ rfl
    | ok a => exact h2 a e h
  have hgd : ∀ {g a p e}, gotDisp symbol g a p = .error e → e = Fail.panic := by
    intro g a p e h
    unfold gotDisp at h
    exact hb h (fun _ => hun) fun _ _ h => hb h (fun _ => hi64) fun _ _ h => hb h (fun _ => hi64)
      fun _ _ h => hb h (fun _ => hi64) fun _ _ h => hi64 h
  have hrs : ∀ {e}, relocS symbol dt = .error e → e = Fail.panic := by
    intro e h
    unfold relocS at h
    split at h
    · split at h
      · exact hb h (fun _ => hun) fun _ _ h => hi64 h
      · exact hi64 h
    · exact hi64 h
  unfold relocPlan at h
  refine hb h (fun _ => hrs) fun s e h => ?_
  refine hb h (fun _ => hi64) fun p e h => ?_
  refine hb h (fun _ => hi64) fun g e h => ?_
  have v64_32 : ∀ {x : Int} {k : Int → Plan} {e}, (do let v ← i64 x; let v ← i32 v; Except.ok (k v) : M Plan) = .error e →
      e = Fail.panic := fun h => hb h (fun _ => hi64) fun _ _ h => hb h (fun _ => hi32) fun _ _ h => by cases h
  have vg : ∀ {k : Int → Plan} {p e}, (do let v ← gotDisp symbol g rel.r_addend p; let v ← i32 v; Except.ok (k v) : M Plan) = .error e →
      e = Fail.panic := fun h => hb h (fun _ => hgd) fun _ _ h => hb h (fun _ => hi32) fun _ _ h => by cases h
  have vpc : ∀ {x p : Int} {k : Int → Plan} {e}, (do let v ← i64 x; let v ← i64 (v - p); let v ← i32 v; Except.ok (k v) : M Plan) = .error e →
      e = Fail.panic := fun h => hb h (fun _ => hi64) fun _ _ h => hb h (fun _ => hi64) fun _ _ h =>
        hb h (fun _ => hi32) fun _ _ h => by cases h
  dsimp only at h
  generalize r_type rel.r_info = ty at h
  by_cases h0 : ty = R_X86_64_NONE
  · rw [if_pos h0] at h; cases h
  rw [if_neg h0] at h
  by_cases h1 : ty = R_X86_64_64
  · rw [if_pos h1] at h; exact hb h (fun _ => hi64) fun _ _ h => by cases h
  rw [if_neg h1] at h
  by_cases h2 : ty = R_X86_64_32
  · rw [if_pos h2] at h; exact v64_32 h
  rw [if_neg h2] at h
  by_cases h3 : ty = R_X86_64_32S
  · rw [if_pos h3] at h; exact hb h (fun _ => hi64) fun _ _ h => by cases h
  rw [if_neg h3] at h
  by_cases h4 : ty = R_X86_64_PC32
  · rw [if_pos h4] at h; exact vpc h
  rw [if_neg h4] at h
  by_cases h5 : ty = R_X86_64_GOT32
  · rw [if_pos h5] at h; exact vg h
  rw [if_neg h5] at h
  by_cases h6 : ty = R_X86_64_GOTPCRELX
  · rw [if_pos h6] at h
    by_cases hd : symbol.dynamic = none
    · rw [if_pos hd] at h; exact vpc h
    · rw [if_neg hd] at h; exact vg h
  rw [if_neg h6] at h
  by_cases h7 : ty = R_X86_64_REX_GOTPCRELX
  · rw [if_pos h7] at h
    by_cases hd : symbol.dynamic = none
    · rw [if_pos hd] at h; exact vpc h
    · rw [if_neg hd] at h; exact vg h
  rw [if_neg h7] at h
  by_cases h8 : ty = R_X86_64_TLSGD ∨ ty = R_X86_64_GOTTPOFF
  · rw [if_pos h8] at h
    by_cases ht : symbol.isTls = true
    · rw [if_pos ht] at h; exact vg h
    · rw [if_neg ht] at h; cases h; rfl
  rw [if_neg h8] at h
  by_cases h9 : ty = R_X86_64_TPOFF32
  · rw [if_pos h9] at h; exact v64_32 h
  rw [if_neg h9] at h
  by_cases h10 : ty = R_X86_64_PLT32
  · rw [if_pos h10] at h
    exact hb h (fun _ => hun) fun _ _ h => hb h (fun _ => hi64) fun _ _ h => vpc h
  · rw [if_neg h10] at h; cases h; rfl

/-! ### Completeness: in-range relocations are applied -/

/-- all quantities are small enough that no intermediate `i64` operation overflows -/
def Small (S : Nat) (A : Int) (P got plt : Nat) (symbol : Symbol) : Prop :=
  S < 2 ^ 60 ∧ -2 ^ 60 ≤ A ∧ A ≤ 2 ^ 60 ∧ P < 2 ^ 60 ∧ got < 2 ^ 60 ∧ plt < 2 ^ 60 ∧
    (∀ g, symbol.inGot = some g → g < 2 ^ 60) ∧ (∀ i, symbol.inPlt = some i → i < 2 ^ 50)

theorem i64_of {x : Int} (h : -9223372036854775808 ≤ x ∧ x < 9223372036854775808) : i64 x = .ok x :=
  i64_ok.2 ⟨rfl, h⟩

theorem i32_of {x : Int} (h : -2147483648 ≤ x ∧ x < 2147483648) : i32 x = .ok x :=
  i32_ok.2 ⟨rfl, h⟩

theorem relocPlan_complete {ca : Nat} {rel : Rela} {symbol : Symbol} {dt : SymbolTable} {got plt : Nat}
    {plan : Plan} {S : Nat} (hS : symAddr symbol dt = some S)
    (hsm : Small S rel.r_addend (ca + rel.r_offset) got plt symbol)
    (hp : planOf symbol (r_type rel.r_info) S rel.r_addend (ca + rel.r_offset : Nat) got plt = some plan)
    (hr : plan.InRange (r_type rel.r_info)) : relocPlan ca rel symbol dt got plt = .ok plan := by
  obtain ⟨b1, b2, b3, b4, b5, b6, b7, b8⟩ := hsm
  have e1 : relocS symbol dt = .ok (S : Int) := relocS_ok.2 ⟨S, hS, rfl, by omega⟩
  have e2 : i64 (ca + rel.r_offset : Nat) = .ok ((ca + rel.r_offset : Nat) : Int) := i64_of (by omega)
  have e3 : i64 got = .ok (got : Int) := i64_of (by omega)
  have e4 : i64 ((S : Int) + rel.r_addend) = .ok (S + rel.r_addend) := i64_of (by omega)
  have e5 : i64 ((S : Int) + rel.r_addend - (ca + rel.r_offset : Nat)) =
      .ok (S + rel.r_addend - (ca + rel.r_offset : Nat)) := i64_of (by omega)
  have eg : ∀ {k : Int → Plan}, (symbol.inGot.map fun g : Nat => k ((g : Int) + got + rel.r_addend - (ca + rel.r_offset : Nat))) = some plan →
      ∃ v, gotDisp symbol got rel.r_addend (ca + rel.r_offset : Nat) = .ok v ∧ plan = k v := by
    intro k h
    simp only [Option.map_eq_some_iff] at h
    obtain ⟨g, hg, h⟩ := h
    have := b7 g hg
    refine ⟨g + got + rel.r_addend - (ca + rel.r_offset : Nat), ?_, h.symm⟩
    unfold gotDisp
    simp only [bind_ok, unwrap_ok, i64_ok]
    exact ⟨g, hg, g, ⟨rfl, by omega⟩, _, ⟨rfl, by omega⟩, _, ⟨rfl, by omega⟩, rfl, by omega⟩
  unfold relocPlan
  simp only [e1, e2, e3, ok_bind, e4, e5]
  generalize r_type rel.r_info = ty at *
  unfold planOf at hp
  by_cases h0 : ty = R_X86_64_NONE
  · rw [if_pos h0] at hp ⊢; cases hp; rfl
  rw [if_neg h0] at hp ⊢
  by_cases h1 : ty = R_X86_64_64
  · rw [if_pos h1] at hp ⊢; cases hp; rfl
  rw [if_neg h1] at hp ⊢
  by_cases h2 : ty = R_X86_64_32
  · rw [if_pos h2] at hp ⊢; cases hp
    rw [i32_of ((hr.2 (by decide)).2 (by rw [h2]; decide))]; rfl
  rw [if_neg h2] at hp ⊢
  by_cases h3 : ty = R_X86_64_32S
  · rw [if_pos h3] at hp ⊢; cases hp; rfl
  rw [if_neg h3] at hp ⊢
  by_cases h4 : ty = R_X86_64_PC32
  · rw [if_pos h4] at hp ⊢; cases hp
    rw [i32_of ((hr.2 (by decide)).2 (by rw [h4]; decide))]; rfl
  rw [if_neg h4] at hp ⊢
  by_cases h5 : ty = R_X86_64_GOT32
  · rw [if_pos h5] at hp ⊢
    obtain ⟨v, hv, rfl⟩ := eg hp
    rw [hv, ok_bind, i32_of ((hr.2 (by decide)).2 (by rw [h5]; decide))]; rfl
  rw [if_neg h5] at hp ⊢
  by_cases h6 : ty = R_X86_64_GOTPCRELX
  · rw [if_pos h6] at hp ⊢
    by_cases hd : symbol.dynamic = none
    · rw [if_pos hd] at hp ⊢; cases hp
      rw [i32_of hr]; rfl
    · rw [if_neg hd] at hp ⊢
      obtain ⟨v, hv, rfl⟩ := eg hp
      rw [hv, ok_bind, i32_of ((hr.2 (by decide)).2 (by rw [h6]; decide))]; rfl
  rw [if_neg h6] at hp ⊢
  by_cases h7 : ty = R_X86_64_REX_GOTPCRELX
  · rw [if_pos h7] at hp ⊢
    by_cases hd : symbol.dynamic = none
    · rw [if_pos hd] at hp ⊢; cases hp
      rw [i32_of hr]; rfl
    · rw [if_neg hd] at hp ⊢
      obtain ⟨v, hv, rfl⟩ := eg hp
      rw [hv, ok_bind, i32_of ((hr.2 (by decide)).2 (by rw [h7]; decide))]; rfl
  rw [if_neg h7] at hp ⊢
  by_cases h8 : ty = R_X86_64_TLSGD ∨ ty = R_X86_64_GOTTPOFF
  · rw [if_pos h8] at hp ⊢
    by_cases ht : symbol.isTls = true
    · rw [if_pos ht] at hp ⊢
      obtain ⟨v, hv, rfl⟩ := eg hp
      rw [hv, ok_bind, i32_of ((hr.2 (by decide)).2 (by rcases h8 with h | h <;> rw [h] <;> decide))]; rfl
    · rw [if_neg ht] at hp; cases hp
  rw [if_neg h8] at hp ⊢
  by_cases h9 : ty = R_X86_64_TPOFF32
  · rw [if_pos h9] at hp ⊢; cases hp
    rw [i32_of ((hr.2 (by decide)).2 (by rw [h9]; decide))]; rfl
  rw [if_neg h9] at hp ⊢
  by_cases h10 : ty = R_X86_64_PLT32
  · rw [if_pos h10] at hp ⊢
    simp only [Option.map_eq_some_iff] at hp
    obtain ⟨i, hi, rfl⟩ := hp
    have := b8 i hi
    have hr' := (hr.2 (by decide)).2 (by rw [h10]; decide)
    simp only [bind_ok, unwrap_ok, pltEntryAddr, PLT_ENTRY_SIZE, i64_ok, i32_ok]
    exact ⟨i, hi, _, ⟨rfl, by omega⟩, _, ⟨rfl, by omega⟩, _, ⟨rfl, by omega⟩, _, ⟨rfl, hr'⟩, rfl⟩
  · rw [if_neg h10] at hp; cases hp

/-! ### Patches -/

theorem planApply_eq (data : Bytes) (off : Nat) (pl : Plan) :
    planApply data off pl = planPatch data off pl >>= fun p => writeAt data p.1 p.2 := by
  cases pl with
  | none => simp [planApply, planPatch, bind, Except.bind, writeAt]
  | plain w v => rfl
  | callJmp v => exact relaxCallJmp_eq data off v
  | movLea v => exact relaxMovLea_eq data off v

/-- the patch of a relocation: where it starts and the bytes -/
def relocPatch (ca : Nat) (data : Bytes) (rel : Rela) (symbol : Symbol) (dt : SymbolTable)
    (got plt : Nat) : M (Nat × Bytes) :=
  relocPlan ca rel symbol dt got plt >>= planPatch data rel.r_offset

theorem applyRelocation_patch (ca : Nat) (data : Bytes) (rel : Rela) (symbol : Symbol) (dt : SymbolTable)
    (got plt : Nat) : applyRelocation ca data rel symbol dt got plt =
      relocPatch ca data rel symbol dt got plt >>= fun p => writeAt data p.1 p.2 := by
  rw [applyRelocation_eq, relocPatch, bind_assoc']
  congr 1; funext pl; exact planApply_eq data rel.r_offset pl

theorem movToLea_length {x y z : UInt8} {i : Bytes} (h : movToLea x y z = some i) : i.length = 3 := by
  unfold movToLea at h
  split at h <;> first | (cases h; rfl) | cases h

theorem relocPatch_region {ca : Nat} {data : Bytes} {rel : Rela} {symbol : Symbol} {dt : SymbolTable}
    {got plt st : Nat} {bs : Bytes} (h : relocPatch ca data rel symbol dt got plt = .ok (st, bs)) :
    patchRegion rel symbol = (st, bs.length) := by
  rw [relocPatch, bind_ok] at h
  obtain ⟨pl, hpl, hp⟩ := h
  obtain ⟨S, -, hpo, -⟩ := relocPlan_ok hpl
  unfold planOf at hpo
  unfold patchRegion
  generalize r_type rel.r_info = ty at *
  have plain : ∀ {w v}, pl = .plain w v → (rel.r_offset, w) = (st, bs.length) := by
    rintro w v rfl
    simp only [planPatch, Except.ok.injEq, Prod.mk.injEq] at hp
    obtain ⟨rfl, rfl⟩ := hp; simp
  have gplain : ∀ {v : Nat → Int}, symbol.inGot.map (fun g => Plan.plain 4 (v g)) = some pl →
      (rel.r_offset, 4) = (st, bs.length) := by
    intro v h
    simp only [Option.map_eq_some_iff] at h
    obtain ⟨g, -, h⟩ := h
    exact plain h.symm
  by_cases h0 : ty = R_X86_64_NONE
  · rw [if_pos h0] at hpo ⊢; cases hpo
    simp only [planPatch, Except.ok.injEq, Prod.mk.injEq] at hp
    obtain ⟨rfl, rfl⟩ := hp; rfl
  rw [if_neg h0] at hpo ⊢
  by_cases h1 : ty = R_X86_64_64
  · rw [if_pos h1] at hpo ⊢; cases hpo; exact plain rfl
  rw [if_neg h1] at hpo ⊢
  by_cases h6 : ty = R_X86_64_GOTPCRELX
  · subst h6
    simp only [show ¬ R_X86_64_GOTPCRELX = R_X86_64_32 by decide, show ¬ R_X86_64_GOTPCRELX = R_X86_64_32S by decide,
      show ¬ R_X86_64_GOTPCRELX = R_X86_64_PC32 by decide, show ¬ R_X86_64_GOTPCRELX = R_X86_64_GOT32 by decide,
      if_false, if_true] at hpo
    by_cases hd : symbol.dynamic = none
    · rw [if_pos hd] at hpo; cases hpo
      simp only [planPatch, patchCallJmp] at hp
      simp only [hd, and_self, if_true]
      split at hp
      · cases hp
      · split at hp
        · cases hp; simp
        · cases hp; simp
        · cases hp
    · rw [if_neg hd] at hpo
      rw [if_neg (by simp [hd]), if_neg (by simp [hd])]
      exact gplain hpo
  by_cases h7 : ty = R_X86_64_REX_GOTPCRELX
  · subst h7
    simp only [show ¬ R_X86_64_REX_GOTPCRELX = R_X86_64_32 by decide, show ¬ R_X86_64_REX_GOTPCRELX = R_X86_64_32S by decide,
      show ¬ R_X86_64_REX_GOTPCRELX = R_X86_64_PC32 by decide, show ¬ R_X86_64_REX_GOTPCRELX = R_X86_64_GOT32 by decide,
      show ¬ R_X86_64_REX_GOTPCRELX = R_X86_64_GOTPCRELX by decide,
      if_false, if_true] at hpo
    by_cases hd : symbol.dynamic = none
    · rw [if_pos hd] at hpo; cases hpo
      simp only [planPatch, patchMovLea] at hp
      rw [if_neg (by simp [R_X86_64_REX_GOTPCRELX, R_X86_64_GOTPCRELX])]
      simp only [hd, and_self, if_true]
      split at hp
      · cases hp
      · split at hp
        · split at hp
          · next hm => cases hp; simp [movToLea_length hm]
          · cases hp
        · cases hp
    · rw [if_neg hd] at hpo
      rw [if_neg (by simp [hd]), if_neg (by simp [hd])]
      exact gplain hpo
  rw [if_neg (by simp [h6]), if_neg (by simp [h7])]
  rw [if_neg h6, if_neg h7] at hpo
  repeat' split at hpo
  all_goals first | cases hpo; exact plain rfl | exact gplain hpo | cases hpo | skip
  simp only [Option.map_eq_some_iff] at hpo
  obtain ⟨g, -, h⟩ := hpo
  exact plain h.symm

/-- the patch depends on the data only inside the patched region -/
theorem planPatch_congr {data data' : Bytes} {off : Nat} {pl : Plan} {st : Nat} {bs : Bytes}
    (h : planPatch data off pl = .ok (st, bs))
    (hc : ∀ i, st ≤ i → i < st + bs.length → data'[i]? = data[i]?) :
    planPatch data' off pl = .ok (st, bs) := by
  cases pl with
  | none => exact h
  | plain w v => exact h
  | callJmp v =>
    simp only [planPatch, patchCallJmp] at h ⊢
    split at h
    · cases h
    · next ho =>
      rw [if_neg ho]
      have hst : st = off - 2 ∧ bs.length = 6 := by
        split at h
        · cases h; simp
        · cases h; simp
        · cases h
      rw [hc (off - 2) (by omega) (by omega), hc (off - 1) (by omega) (by omega)]
      exact h
  | movLea v =>
    simp only [planPatch, patchMovLea] at h ⊢
    split at h
    · cases h
    · next ho =>
      rw [if_neg ho]
      have hst : st = off - 3 ∧ bs.length = 7 := by
        split at h
        · split at h
          · next hm => cases h; simp [movToLea_length hm]
          · cases h
        · cases h
      rw [hc (off - 3) (by omega) (by omega), hc (off - 2) (by omega) (by omega),
        hc (off - 1) (by omega) (by omega)]
      exact h

theorem relocPatch_congr {ca : Nat} {data data' : Bytes} {rel : Rela} {symbol : Symbol} {dt : SymbolTable}
    {got plt st : Nat} {bs : Bytes} (h : relocPatch ca data rel symbol dt got plt = .ok (st, bs))
    (hc : ∀ i, st ≤ i → i < st + bs.length → data'[i]? = data[i]?) :
    relocPatch ca data' rel symbol dt got plt = .ok (st, bs) := by
  rw [relocPatch, bind_ok] at h ⊢
  obtain ⟨pl, h1, h2⟩ := h
  exact ⟨pl, h1, planPatch_congr h2 hc⟩

theorem applyRelocation_error {ca : Nat} {data : Bytes} {rel : Rela} {symbol : Symbol} {dt : SymbolTable}
    {got plt : Nat} {e : Fail} (h : applyRelocation ca data rel symbol dt got plt = .error e) : e = .panic := by
  rw [applyRelocation_eq] at h
  cases hp : relocPlan ca rel symbol dt got plt with
  | error e' => rw [hp] at h; cases h; exact relocPlan_error hp
  | ok pl =>
    rw [hp, ok_bind, planApply_eq] at h
    cases hq : planPatch data rel.r_offset pl with
    | error e' =>
      rw [hq] at h; cases h
      cases pl with
      | none => cases hq
      | plain w v => cases hq
      | callJmp v =>
        simp only [planPatch, patchCallJmp] at hq
        repeat' split at hq
        all_goals (cases hq; try rfl)
      | movLea v =>
        simp only [planPatch, patchMovLea] at hq
        repeat' split at hq
        all_goals (cases hq; try rfl)
    | ok p =>
      rw [hq, ok_bind] at h
      unfold writeAt at h
      split at h <;> cases h
      rfl

end Dld
