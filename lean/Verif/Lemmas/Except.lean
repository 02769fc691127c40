import Verif.Model.Bytes
/-! # Lemmas about failing computations -/
namespace Dld

/-- results can be compared (used by the concrete examples) -/
instance instDecEqExcept {ε α : Type} [DecidableEq ε] [DecidableEq α] : DecidableEq (Except ε α)
  | .error a, .error b => if h : a = b then isTrue (h ▸ rfl) else isFalse fun e => h (by cases e; rfl)
  | .ok a, .ok b => if h : a = b then isTrue (h ▸ rfl) else isFalse fun e => h (by cases e; rfl)
  | .error _, .ok _ => isFalse nofun
  | .ok _, .error _ => isFalse nofun

theorem bind_ok {ε α β : Type} {x : Except ε α} {f : α → Except ε β} {b : β} :
    (x >>= f) = .ok b ↔ ∃ a, x = .ok a ∧ f a = .ok b := by
  cases x with
  | error e => simp [bind, Except.bind]
  | ok a => simp [bind, Except.bind]

theorem unwrap_ok {α : Type} {o : Option α} {a : α} : unwrap o = .ok a ↔ o = some a := by
  cases o <;> simp [unwrap]

theorem writeAt_ok {buf v out : Bytes} {off : Nat} :
    writeAt buf off v = .ok out ↔
      off + v.length ≤ buf.length ∧ out = buf.take off ++ v ++ buf.drop (off + v.length) := by
  unfold writeAt
  split
  · next h => simp [h, eq_comm]
  · next h => simp [h]

theorem length_writeAt {buf v out : Bytes} {off : Nat} (h : writeAt buf off v = .ok out) :
    out.length = buf.length := by
  obtain ⟨h1, rfl⟩ := writeAt_ok.1 h
  simp; omega

theorem getElem?_writeAt {buf v out : Bytes} {off : Nat} (h : writeAt buf off v = .ok out) (i : Nat) :
    out[i]? = if off ≤ i ∧ i < off + v.length then v[i - off]? else buf[i]? := by
  obtain ⟨h1, rfl⟩ := writeAt_ok.1 h
  by_cases hi : i < off
  · rw [if_neg (by omega), List.append_assoc, List.getElem?_append_left (by simp; omega),
      List.getElem?_take_of_lt hi]
  · by_cases hj : i < off + v.length
    · rw [if_pos (by omega), List.getElem?_append_left (by simp; omega),
        List.getElem?_append_right (by simp; omega)]
      congr 1; simp; omega
    · rw [if_neg (by omega), List.getElem?_append_right (by simp; omega), List.getElem?_drop]
      congr 1; simp; omega

theorem foldM'_nil {ε σ α : Type} (f : σ → α → Except ε σ) (s : σ) : foldM' f s [] = .ok s := rfl

theorem foldM'_cons {ε σ α : Type} (f : σ → α → Except ε σ) (s : σ) (a : α) (l : List α) :
    foldM' f s (a :: l) = f s a >>= fun s' => foldM' f s' l := by
  rw [foldM']; cases f s a <;> rfl

theorem foldM'_append {ε σ α : Type} (f : σ → α → Except ε σ) (s : σ) (l l' : List α) :
    foldM' f s (l ++ l') = foldM' f s l >>= fun s' => foldM' f s' l' := by
  induction l generalizing s with
  | nil => rfl
  | cons a l ih =>
    rw [List.cons_append, foldM'_cons, foldM'_cons]
    cases f s a with
    | error e => rfl
    | ok s' => exact ih s'

/-- an invariant carried through a loop that succeeds -/
theorem foldM'_invariant {ε σ α : Type} {f : σ → α → Except ε σ} (P : σ → Prop) {l : List α} {s s' : σ}
    (h : foldM' f s l = .ok s') (h0 : P s)
    (hstep : ∀ s a s', a ∈ l → P s → f s a = .ok s' → P s') : P s' := by
  induction l generalizing s with
  | nil => cases h; exact h0
  | cons a l ih =>
    rw [foldM'_cons, bind_ok] at h
    obtain ⟨s1, h1, h2⟩ := h
    exact ih h2 (hstep s a s1 (by simp) h0 h1) fun s a s' ha => hstep s a s' (by simp [ha])

theorem mapAccumM_cons {ε σ α β : Type} (f : σ → α → Except ε (σ × β)) (s : σ) (a : α) (l : List α)
    (r : σ × List β) : mapAccumM f s (a :: l) = .ok r ↔
      ∃ s1 b s2 bs, f s a = .ok (s1, b) ∧ mapAccumM f s1 l = .ok (s2, bs) ∧ r = (s2, b :: bs) := by
  rw [mapAccumM]
  cases f s a with
  | error e => simp
  | ok p =>
    obtain ⟨s1, b⟩ := p
    simp only
    cases hm : mapAccumM f s1 l with
    | error e => simp [hm]
    | ok q =>
      obtain ⟨s2, bs⟩ := q
      simp only [Except.ok.injEq, Prod.mk.injEq]
      constructor
      · intro h; exact ⟨s1, b, s2, bs, ⟨rfl, rfl⟩, hm, h.symm⟩
      · rintro ⟨s1', b', s2', bs', ⟨rfl, rfl⟩, h2, rfl⟩
        rw [hm] at h2; cases h2; rfl

end Dld
