import Verif.Model.Script
import Verif.Spec.Script
/-! # Linker scripts (C73, C81) -/
namespace Dld.Script

/-! ### C73 -/

theorem stripPrefix_append {p s r : Bytes} (h : stripPrefix p s = some r) : s = p ++ r := by
  induction p generalizing s with
  | nil => cases h; rfl
  | cons a p ih =>
    cases s with
    | nil => cases h
    | cons c s =>
      rw [stripPrefix] at h
      split at h
      · next e => rw [e, ih h]; rfl
      · cases h

theorem str_ok {p s r : Bytes} {u : Unit} (h : str p s = .ok u r) : s = p ++ r := by
  unfold str at h
  split at h
  · next r' e => cases h; exact stripPrefix_append e
  · split at h <;> cases h

theorem skipSpaces_suffix (s : Bytes) : skipSpaces s <:+ s := List.dropWhile_suffix _

theorem parseArg_suffix {s a r : Bytes} (h : parseArg s = .ok a r) : r <:+ s := by
  unfold parseArg at h
  split at h
  · cases h
  · cases h; exact List.dropWhile_suffix _

theorem afterComment_suffix {s r : Bytes} (h : afterComment s = some r) : r <:+ s := by
  induction s with
  | nil => cases h
  | cons a s ih =>
    cases s with
    | nil => cases h
    | cons b s =>
      rw [afterComment] at h
      split at h
      · split at h
        · cases h; exact ⟨[a, b], rfl⟩
        · cases h
      · exact (ih h).trans (List.suffix_cons _ _)

theorem parseComment_suffix {s r : Bytes} {u : Unit} (h : parseComment s = .ok u r) : r <:+ s := by
  unfold parseComment at h
  split at h
  · next rest e =>
    split at h
    · next r' e' =>
      cases h
      refine (afterComment_suffix e').trans ?_
      rw [str_ok e]; exact List.suffix_append _ _
    · cases h
  · cases h
  · cases h

theorem items_suffix {α : Type} {p : Bytes → Res α} (hp : ∀ s a r, p s = .ok a r → r <:+ s) {fuel : Nat} {s : Bytes} {l : List α}
    {r : Bytes} (h : items p fuel s = some (l, r)) : r <:+ s := by
  induction fuel generalizing s l with
  | zero => cases h; exact List.suffix_refl _
  | succ n ih =>
    rw [items] at h
    split at h
    · next a rest e =>
      obtain ⟨⟨l', r'⟩, h1, h2⟩ := Option.map_eq_some_iff.1 h
      cases h2
      exact ((ih h1).trans (skipSpaces_suffix _)).trans (hp _ _ _ e)
    · cases h; exact List.suffix_refl _
    · cases h

/-- a command that is recognised consumes something -/
theorem command_suffix {α : Type} {name : Bytes} {args : Bytes → Option (α × Bytes)} (ha : ∀ s a r, args s = some (a, r) → r <:+ s)
    {s r : Bytes} {a : α} (h : command name args s = .ok a r) : ∃ t, s = name ++ t ∧ r <:+ t := by
  unfold command at h
  split at h
  · cases h
  · cases h
  · next rest e =>
    refine ⟨rest, str_ok e, ?_⟩
    split at h
    · next c rest' e1 =>
      have h1 : rest' <:+ rest := ((List.suffix_cons c rest').trans (e1 ▸ List.suffix_refl _)).trans (skipSpaces_suffix rest)
      split at h
      · split at h
        · next a' d rest'' e2 =>
          split at h
          · cases h
            exact ((List.suffix_cons _ _).trans (ha _ _ _ e2)).trans h1
          · cases h
        · cases h
      · cases h
    · cases h

theorem suffix_of_wordArgs {s : Bytes} {l : List Bytes} {r : Bytes} (h : items parseArg s.length (skipSpaces s) = some (l, r)) : r <:+ s :=
  (items_suffix (fun _ _ _ => parseArg_suffix) h).trans (skipSpaces_suffix _)

theorem parseAsNeeded_suffix {s r : Bytes} {l : List Bytes} (h : parseAsNeeded s = .ok l r) : r <:+ s := by
  unfold parseAsNeeded at h
  split at h
  · next l' rest e =>
    cases h
    obtain ⟨t, rfl, ht⟩ := command_suffix (fun _ _ _ => suffix_of_wordArgs) e
    exact ht.trans (List.suffix_append _ _)
  · cases h
  · cases h

theorem groupItem_suffix {s r : Bytes} {l : List Bytes} (h : groupItem s = .ok l r) : r <:+ s := by
  unfold groupItem at h
  split at h
  · next e => cases h; exact parseAsNeeded_suffix e
  · cases h
  · split at h
    · next e => cases h; exact parseArg_suffix e
    · cases h
    · cases h

theorem parseGroup_shorter {s r : Bytes} {l : List Bytes} (h : parseGroup s = .ok l r) : r <:+ s ∧ r.length < s.length := by
  unfold parseGroup at h
  split at h
  · next l' rest e =>
    cases h
    obtain ⟨t, rfl, ht⟩ := command_suffix (fun s _ _ h => (items_suffix (fun _ _ _ => groupItem_suffix) h).trans (skipSpaces_suffix s)) e
    refine ⟨ht.trans (List.suffix_append _ _), ?_⟩
    have := ht.length_le
    simp; omega
  · cases h
  · cases h

theorem parseOutputFormat_shorter {s r : Bytes} {l : List Bytes} (h : parseOutputFormat s = .ok l r) : r <:+ s ∧ r.length < s.length := by
  unfold parseOutputFormat at h
  split at h
  · next l' rest e =>
    cases h
    obtain ⟨t, rfl, ht⟩ := command_suffix (fun s a r h => by
      split at h
      · next e' =>
        cases h
        exact ((skipSpaces_suffix _).trans (parseArg_suffix e')).trans (skipSpaces_suffix _)
      · cases h) e
    refine ⟨ht.trans (List.suffix_append _ _), ?_⟩
    have := ht.length_le
    simp; omega
  · cases h
  · cases h

theorem skipWs_suffix {fuel : Nat} {s r : Bytes} (h : skipWs fuel s = some r) : r <:+ s := by
  induction fuel generalizing s with
  | zero => cases h; exact List.suffix_refl _
  | succ n ih =>
    rw [skipWs] at h
    split at h
    · exact (ih h).trans (skipSpaces_suffix _)
    · split at h
      · next e => exact (ih h).trans (parseComment_suffix e)
      · cases h; exact List.suffix_refl _
      · cases h

/-- what a round leaves is the end of the text; it is the whole text only if no command was found -/
theorem line_suffix {s l : Bytes} {a : Option (List Bytes)} (h : line s = some (a, l)) :
    l <:+ s ∧ (l.length = s.length → l = s ∧ a = none) := by
  unfold line at h
  split at h
  · cases h
  · next t e =>
    have ht := skipWs_suffix e
    have hle := ht.length_le
    split at h
    · next e1 =>
      cases h
      obtain ⟨h1, h2⟩ := parseGroup_shorter e1
      exact ⟨h1.trans ht, fun he => by omega⟩
    · cases h
    · split at h
      · next e1 =>
        cases h
        obtain ⟨h1, h2⟩ := parseOutputFormat_shorter e1
        exact ⟨h1.trans ht, fun he => by omega⟩
      · cases h
      · cases h
        exact ⟨ht, fun he => ⟨ht.eq_of_length he, rfl⟩⟩

/-- `Reaches s t`: while parsing `s` the parser comes to a round with the text `t` left -/
inductive Reaches : Bytes → Bytes → Prop where
  | refl {s} : Reaches s s
  | step {s l t a} : line s = some (a, l) → l ≠ [] → Reaches l t → Reaches s t

/-- a text in which the parser makes no progress -/
def Stuck (t : Bytes) : Prop := t ≠ [] ∧ line t = some (none, t)

theorem parse_stuck {t : Bytes} (h : Stuck t) (fuel : Nat) (args : List Bytes) : parse fuel args t = .running := by
  induction fuel generalizing args with
  | zero => rfl
  | succ n ih =>
    rw [parse]
    simp only [h.2, h.1, ne_eq, not_false_eq_true, if_true]
    exact ih _

/-- **C73** is violated: on a text that starts with none of the known commands, like `FOO`, the parser
runs forever. -/
theorem C73_termination_violated : ∀ fuel, parse fuel [] b!"FOO" = .running :=
  fun fuel => parse_stuck (by constructor <;> decide +kernel) fuel []

/-- **C73**, the part that holds: the parser ends within as many rounds as the text has characters,
and one more, unless it comes to a text in which a round makes no progress; in that case it never
ends. What is missing: such texts (`C73_termination_violated`). -/
theorem C73_termination_partial (s : Bytes) (args : List Bytes) :
    ((∃ t, Reaches s t ∧ Stuck t) ∧ ∀ fuel, parse fuel args s = .running) ∨
    ((¬ ∃ t, Reaches s t ∧ Stuck t) ∧ parse (s.length + 1) args s ≠ .running ∧
      ∀ fuel, s.length < fuel → parse fuel args s = parse (s.length + 1) args s) := by
  have main : ∀ n (s : Bytes), s.length ≤ n → ∀ args,
      ((∃ t, Reaches s t ∧ Stuck t) ∧ ∀ fuel, parse fuel args s = .running) ∨
      ((¬ ∃ t, Reaches s t ∧ Stuck t) ∧ ∃ r, r ≠ .running ∧ ∀ fuel, s.length < fuel → parse fuel args s = r) := by
    intro n
    induction n with
    | zero =>
      intro s hs args
      obtain rfl : s = [] := List.length_eq_zero_iff.1 (by omega)
      refine .inr ⟨?_, .ok (args ++ []), by simp, fun fuel hf => ?_⟩
      · rintro ⟨t, ht, hst⟩
        cases ht with
        | refl => exact hst.1 rfl
        | step h1 h2 _ => rw [show line [] = some (none, []) by decide +kernel] at h1; cases h1; exact h2 rfl
      · obtain ⟨f, rfl⟩ : ∃ f, fuel = f + 1 := ⟨fuel - 1, by simp at hf; omega⟩
        rw [parse, show line [] = some (none, []) by decide +kernel]
        simp
    | succ n ih =>
      intro s hs args
      cases hl : line s with
      | none =>
        refine .inr ⟨?_, .error, by simp, fun fuel hf => ?_⟩
        · rintro ⟨t, ht, hst⟩
          cases ht with
          | refl => rw [hst.2] at hl; cases hl
          | step h1 _ _ => rw [h1] at hl; cases hl
        · obtain ⟨f, rfl⟩ : ∃ f, fuel = f + 1 := ⟨fuel - 1, by omega⟩
          rw [parse, hl]
      | some p =>
        obtain ⟨a, l⟩ := p
        obtain ⟨hsuf, heq⟩ := line_suffix hl
        by_cases hne : l = []
        · subst hne
          refine .inr ⟨?_, .ok (args ++ a.getD []), by simp, fun fuel hf => ?_⟩
          · rintro ⟨t, ht, hst⟩
            cases ht with
            | refl => have := hst.2; rw [hl] at this; cases this; exact hst.1 rfl
            | step h1 h2 _ => rw [hl] at h1; cases h1; exact h2 rfl
          · obtain ⟨f, rfl⟩ : ∃ f, fuel = f + 1 := ⟨fuel - 1, by omega⟩
            rw [parse, hl]
            simp
        · by_cases hlen : l.length = s.length
          · obtain ⟨rfl, rfl⟩ := heq hlen
            exact .inl ⟨⟨l, .refl, hne, hl⟩, fun fuel => parse_stuck ⟨hne, hl⟩ fuel args⟩
          · have hlt : l.length < s.length := by have := hsuf.length_le; omega
            have hp : ∀ fuel, parse (fuel + 1) args s = parse fuel (args ++ a.getD []) l := by
              intro fuel; rw [parse, hl]; simp [hne]
            have hr : (∃ t, Reaches s t ∧ Stuck t) ↔ ∃ t, Reaches l t ∧ Stuck t := by
              constructor
              · rintro ⟨t, ht, hst⟩
                cases ht with
                | refl => have := hst.2; rw [hl] at this; cases this; omega
                | step h1 h2 h3 => rw [hl] at h1; cases h1; exact ⟨t, h3, hst⟩
              · rintro ⟨t, ht, hst⟩
                exact ⟨t, .step hl hne ht, hst⟩
            rcases ih l (by omega) (args ++ a.getD []) with ⟨h1, h2⟩ | ⟨h1, r, h2, h3⟩
            · refine .inl ⟨hr.2 h1, fun fuel => ?_⟩
              cases fuel with
              | zero => rfl
              | succ f => rw [hp]; exact h2 f
            · refine .inr ⟨fun h => h1 (hr.1 h), r, h2, fun fuel hf => ?_⟩
              obtain ⟨f, rfl⟩ : ∃ f, fuel = f + 1 := ⟨fuel - 1, by omega⟩
              rw [hp]; exact h3 f (by omega)
  rcases main _ s (Nat.le_refl _) args with h | ⟨h1, r, h2, h3⟩
  · exact .inl h
  · refine .inr ⟨h1, ?_, fun fuel hf => ?_⟩
    · rw [h3 _ (by omega)]; exact h2
    · rw [h3 _ hf, h3 _ (by omega)]

/-- both cases occur -/
example : (∃ t, Reaches b!"GROUP ( a ) INPUT ( b )" t ∧ Stuck t) ∧ parse 100 [] b!"GROUP ( a ) /* c */" = .ok [b!"a"] := by
  refine ⟨⟨b!"INPUT ( b )", ?_, by constructor <;> decide +kernel⟩, by decide +kernel⟩
  exact .step (a := some [b!"a"]) (l := b!" INPUT ( b )") (by decide +kernel) (by decide)
    (.step (a := none) (l := b!"INPUT ( b )") (by decide +kernel) (by decide) .refl)

/-! ### C81: well-formed scripts -/

theorem isSpace_iff (c : UInt8) : isSpace c = true ↔ c ∈ blankChars := by
  have : ∀ n : Fin 256, isSpace (UInt8.ofNat n.1) = true ↔ UInt8.ofNat n.1 ∈ blankChars := by decide +kernel
  have h := this ⟨c.toNat, c.toNat_lt⟩
  simpa using h

theorem isArg_iff (c : UInt8) : isArg c = true ↔ c ∈ argChars := by
  have : ∀ n : Fin 256, isArg (UInt8.ofNat n.1) = true ↔ UInt8.ofNat n.1 ∈ argChars := by decide +kernel
  have h := this ⟨c.toNat, c.toNat_lt⟩
  simpa using h

theorem isArg_of_space {c : UInt8} (h : isSpace c = true) : isArg c = false := by
  have : ∀ n : Fin 256, isSpace (UInt8.ofNat n.1) = true → isArg (UInt8.ofNat n.1) = false := by decide +kernel
  have h' := this ⟨c.toNat, c.toNat_lt⟩
  simp at h'
  exact h' h

/-- does not begin with white space -/
def Firm (t : Bytes) : Prop := ∀ c, t.head? = some c → isSpace c = false

/-- does not begin with a character of a word -/
def NoWord (t : Bytes) : Prop := ∀ c, t.head? = some c → isArg c = false

theorem skipSpaces_blank {b t : Bytes} (hb : Blank b) (ht : Firm t) : skipSpaces (b ++ t) = t := by
  unfold skipSpaces
  rw [List.dropWhile_append_of_pos fun c hc => (isSpace_iff c).2 (hb c hc)]
  cases t with
  | nil => rfl
  | cons c t => rw [List.dropWhile_cons_of_neg (by simp [ht c rfl])]

theorem parseArg_word {a t : Bytes} (ha : IsWord a) (ht : NoWord t) : parseArg (a ++ t) = .ok a t := by
  have h1 : (a ++ t).takeWhile isArg = a := by
    rw [List.takeWhile_append_of_pos fun c hc => (isArg_iff c).2 (ha.2 c hc)]
    cases t with
    | nil => simp
    | cons c t => rw [List.takeWhile_cons_of_neg (by simp [ht c rfl])]; simp
  have h2 : (a ++ t).dropWhile isArg = t := by
    rw [List.dropWhile_append_of_pos fun c hc => (isArg_iff c).2 (ha.2 c hc)]
    cases t with
    | nil => rfl
    | cons c t => rw [List.dropWhile_cons_of_neg (by simp [ht c rfl])]
  unfold parseArg
  rw [h1, h2, if_neg ha.1]

theorem parseArg_none {t : Bytes} (ht : NoWord t) : parseArg t = .empty := by
  unfold parseArg
  cases t with
  | nil => rfl
  | cons c t => rw [List.takeWhile_cons_of_neg (by simp [ht c rfl])]; rfl

theorem noWord_blank {sp t : Bytes} (hb : Blank sp) (h : sp = [] → NoWord t) : NoWord (sp ++ t) := by
  cases sp with
  | nil => exact h rfl
  | cons c sp => intro d hd; cases hd; exact isArg_of_space ((isSpace_iff c).2 (hb c (by simp)))

theorem word_firm {a t : Bytes} (ha : IsWord a) : Firm (a ++ t) := by
  cases a with
  | nil => exact absurd rfl ha.1
  | cons c a =>
    intro d hd
    cases hd
    cases hs : isSpace c with
    | false => rfl
    | true =>
      have := isArg_of_space hs
      rw [(isArg_iff c).2 (ha.2 c (by simp))] at this
      cases this

theorem stripPrefix_self (p t : Bytes) : stripPrefix p (p ++ t) = some t := by
  induction p with
  | nil => rfl
  | cons a p ih => show stripPrefix (a :: p) (a :: (p ++ t)) = _; rw [stripPrefix, if_pos rfl, ih]

theorem str_self (p t : Bytes) : str p (p ++ t) = .ok () t := by unfold str; rw [stripPrefix_self]

theorem str_other {p s : Bytes} {c : UInt8} (hp : p.head? = some c) (hs : s.head? ≠ some c) : str p s = .empty := by
  cases p with
  | nil => cases hp
  | cons a p =>
    cases hp
    unfold str
    cases s with
    | nil => simp [stripPrefix]
    | cons d s =>
      have : ¬ c = d := fun h => hs (by simp [h])
      simp [stripPrefix, this]

theorem firm_cons {c : UInt8} {t : Bytes} (h : isSpace c = false) : Firm (c :: t) := fun d hd => by cases hd; exact h
theorem noWord_cons {c : UInt8} {t : Bytes} (h : isArg c = false) : NoWord (c :: t) := fun d hd => by cases hd; exact h

theorem words_firm {ws : List Bytes} {tw : Bytes} (h : Words ws tw) (r : Bytes) : Firm (tw ++ 41 :: r) := by
  cases h with
  | nil => exact firm_cons (by decide)
  | last ha _ => rw [List.append_assoc]; exact word_firm ha
  | more ha _ _ _ => rw [List.append_assoc, List.append_assoc]; exact word_firm ha

theorem words_length {ws : List Bytes} {tw : Bytes} (h : Words ws tw) : ws.length ≤ tw.length := by
  have pos : ∀ a : Bytes, a ≠ [] → 0 < a.length := fun a ha => List.length_pos_iff.2 ha
  induction h with
  | nil => simp
  | last ha _ => have := pos _ ha.1; simp; omega
  | more ha _ _ _ ih => have := pos _ ha.1; simp; omega

/-- white space separated words before a closing parenthesis are read in order -/
theorem items_words {ws : List Bytes} {tw : Bytes} (h : Words ws tw) (r : Bytes) :
    ∀ fuel, ws.length ≤ fuel → items parseArg fuel (tw ++ 41 :: r) = some (ws, 41 :: r) := by
  have close : ∀ fuel, items parseArg fuel (41 :: r) = some ([], 41 :: r) := by
    intro fuel
    cases fuel with
    | zero => rfl
    | succ n => rw [items, parseArg_none (noWord_cons (by decide))]
  induction h with
  | nil => exact fun fuel _ => close fuel
  | last ha hb =>
    intro fuel hf
    obtain ⟨n, rfl⟩ : ∃ n, fuel = n + 1 := ⟨fuel - 1, by simp at hf; omega⟩
    rw [List.append_assoc, items, parseArg_word ha (noWord_blank hb fun _ => noWord_cons (by decide))]
    simp only
    rw [skipSpaces_blank hb (firm_cons (by decide)), close]
    rfl
  | more ha hb hne hw ih =>
    intro fuel hf
    obtain ⟨n, rfl⟩ : ∃ n, fuel = n + 1 := ⟨fuel - 1, by simp at hf; omega⟩
    rw [List.append_assoc, List.append_assoc, items, parseArg_word ha (noWord_blank hb fun e => absurd e hne)]
    simp only
    rw [skipSpaces_blank hb (words_firm hw r), ih n (by simp at hf; omega)]
    rfl

theorem command_reads {α : Type} {name b1 inner r : Bytes} {a : α} {args : Bytes → Option (α × Bytes)} (hb : Blank b1)
    (ha : args (inner ++ 41 :: r) = some (a, 41 :: r)) : command name args (name ++ (b1 ++ 40 :: (inner ++ 41 :: r))) = .ok a r := by
  unfold command
  rw [str_self]
  simp only
  rw [skipSpaces_blank hb (firm_cons (by decide))]
  simp only [if_true]
  rw [ha]
  simp

theorem parseAsNeeded_reads {b1 b2 : Bytes} {ws : List Bytes} {tw : Bytes} (hb1 : Blank b1) (hb2 : Blank b2) (h : Words ws tw) (r : Bytes) :
    parseAsNeeded (b!"AS_NEEDED" ++ (b1 ++ 40 :: ((b2 ++ tw) ++ 41 :: r))) = .ok (b!"--as-needed" :: ws) r := by
  unfold parseAsNeeded
  rw [command_reads (a := ws) hb1 ?_]
  rw [List.append_assoc, skipSpaces_blank hb2 (words_firm h r)]
  refine items_words h r _ ?_
  have := words_length h
  simp; omega

theorem entries_firm {Ok : Bytes → Prop} {es : List Bytes} {te : Bytes} (h : Entries Ok es te) (r : Bytes) : Firm (te ++ 41 :: r) := by
  cases h with
  | nil => exact firm_cons (by decide)
  | last ha _ _ => rw [List.append_assoc]; exact word_firm ha
  | word ha _ _ _ _ => rw [List.append_assoc, List.append_assoc]; exact word_firm ha
  | asNeeded => simp only [List.append_assoc]; exact firm_cons (by decide)

/-- a word that does not begin with `A` -/
def NoA (a : Bytes) : Prop := a.head? ≠ some 65

theorem groupItem_word {a t : Bytes} (ha : IsWord a) (hn : NoA a) (ht : NoWord t) : groupItem (a ++ t) = .ok [a] t := by
  have h1 : parseAsNeeded (a ++ t) = .empty := by
    unfold parseAsNeeded command
    rw [str_other (c := 65) rfl ?_]
    cases a with
    | nil => exact absurd rfl ha.1
    | cons c a => simpa [NoA] using hn
  unfold groupItem
  rw [h1, parseArg_word ha ht]

/-- the entries of a group before its closing parenthesis are read in order -/
theorem items_entries {es : List Bytes} {te : Bytes} (h : Entries NoA es te) (r : Bytes) :
    ∀ fuel, te.length ≤ fuel → ∃ ls, items groupItem fuel (te ++ 41 :: r) = some (ls, 41 :: r) ∧ ls.flatten = es := by
  have close : ∀ fuel, items groupItem fuel (41 :: r) = some ([], 41 :: r) := by
    intro fuel
    cases fuel with
    | zero => rfl
    | succ n =>
      have : groupItem (41 :: r) = .empty := by
        unfold groupItem parseAsNeeded command
        rw [str_other (c := 65) rfl (by simp), parseArg_none (noWord_cons (by decide))]
      rw [items, this]
  have pos : ∀ a : Bytes, a ≠ [] → 0 < a.length := fun a ha => List.length_pos_iff.2 ha
  induction h with
  | nil => exact fun fuel _ => ⟨[], close fuel, rfl⟩
  | @last a sp ha hn hb =>
    intro fuel hf
    have := pos _ ha.1
    obtain ⟨n, rfl⟩ : ∃ n, fuel = n + 1 := ⟨fuel - 1, by simp at hf; omega⟩
    refine ⟨[[a]], ?_, rfl⟩
    rw [List.append_assoc, items, groupItem_word ha hn (noWord_blank hb fun _ => noWord_cons (by decide))]
    simp only
    rw [skipSpaces_blank hb (firm_cons (by decide)), close]
    rfl
  | @word a sp args t ha hn hb hne hw ih =>
    intro fuel hf
    have := pos _ ha.1
    obtain ⟨n, rfl⟩ : ∃ n, fuel = n + 1 := ⟨fuel - 1, by simp at hf; omega⟩
    obtain ⟨ls, h1, h2⟩ := ih n (by simp at hf; omega)
    refine ⟨[a] :: ls, ?_, by simp [h2]⟩
    rw [List.append_assoc, List.append_assoc, items, groupItem_word ha hn (noWord_blank hb fun e => absurd e hne)]
    simp only
    rw [skipSpaces_blank hb (entries_firm hw r), h1]
    rfl
  | @asNeeded b1 b2 ws tw sp args t hb1 hb2 hw hsp he ih =>
    intro fuel hf
    obtain ⟨n, rfl⟩ : ∃ n, fuel = n + 1 := ⟨fuel - 1, by simp at hf; omega⟩
    obtain ⟨ls, h1, h2⟩ := ih n (by simp at hf; omega)
    refine ⟨(b!"--as-needed" :: ws) :: ls, ?_, by simp [h2]⟩
    have e : b!"AS_NEEDED" ++ b1 ++ b!"(" ++ b2 ++ tw ++ b!")" ++ sp ++ t ++ 41 :: r
        = b!"AS_NEEDED" ++ (b1 ++ 40 :: ((b2 ++ tw) ++ 41 :: (sp ++ (t ++ 41 :: r)))) := by
      simp
    rw [e, items]
    unfold groupItem
    rw [parseAsNeeded_reads hb1 hb2 hw]
    simp only
    rw [skipSpaces_blank hsp (entries_firm he r)]
    show (items groupItem n _).map _ = _
    rw [h1]
    rfl

theorem parseGroup_reads {b1 b2 : Bytes} {es : List Bytes} {te : Bytes} (hb1 : Blank b1) (hb2 : Blank b2) (h : Entries NoA es te) (r : Bytes) :
    parseGroup (b!"GROUP" ++ (b1 ++ 40 :: ((b2 ++ te) ++ 41 :: r))) = .ok es r := by
  obtain ⟨ls, h1, h2⟩ := items_entries h r (((b2 ++ te) ++ 41 :: r).length) (by simp; omega)
  unfold parseGroup
  rw [command_reads (a := ls) hb1 ?_]
  · rw [← h2]
  · rw [show skipSpaces (b2 ++ te ++ 41 :: r) = te ++ 41 :: r by
      rw [List.append_assoc, skipSpaces_blank hb2 (entries_firm h r)]]
    exact h1

theorem parseOutputFormat_reads {b1 b2 a b3 : Bytes} (hb1 : Blank b1) (hb2 : Blank b2) (ha : IsWord a) (hb3 : Blank b3) (r : Bytes) :
    parseOutputFormat (b!"OUTPUT_FORMAT" ++ (b1 ++ 40 :: ((b2 ++ a ++ b3) ++ 41 :: r))) = .ok [] r := by
  unfold parseOutputFormat
  rw [command_reads (a := a) hb1 ?_]
  rw [show skipSpaces (b2 ++ a ++ b3 ++ 41 :: r) = a ++ (b3 ++ 41 :: r) by
      rw [List.append_assoc, List.append_assoc, skipSpaces_blank hb2 (word_firm ha)]]
  rw [parseArg_word ha (noWord_blank hb3 fun _ => noWord_cons (by decide))]
  simp only
  rw [skipSpaces_blank hb3 (firm_cons (by decide))]

theorem afterComment_reads {body : Bytes} (h : ∀ c ∈ body, c ≠ 42) (r : Bytes) : afterComment (body ++ (b!"*/" ++ r)) = some r := by
  induction body with
  | nil => show afterComment (42 :: 47 :: r) = _; rw [afterComment]; simp
  | cons c body ih =>
    have hc := h c (by simp)
    have := ih fun d hd => h d (by simp [hd])
    cases body with
    | nil => show afterComment (c :: 42 :: 47 :: r) = _; rw [afterComment, if_neg hc]; exact this
    | cons d body => show afterComment (c :: d :: _) = _; rw [afterComment, if_neg hc]; exact this

/-- begins neither with white space nor a slash -/
def Solid (t : Bytes) : Prop := Firm t ∧ t.head? ≠ some 47

theorem skipWs_solid {t : Bytes} (h : Solid t) (fuel : Nat) : skipWs fuel t = some t := by
  cases fuel with
  | zero => rfl
  | succ n =>
    have h1 : skipSpaces t = t := skipSpaces_blank (b := []) (fun c hc => by cases hc) h.1
    have h2 : parseComment t = .empty := by
      unfold parseComment
      rw [str_other (c := 47) rfl h.2]
    rw [skipWs, h1, h2]
    simp

/-- every piece of white space is skipped, in as many pieces as are there -/
theorem skipWs_filler {f t : Bytes} (hf : Filler f) (h : Solid t) :
    ∀ fuel, f.length ≤ fuel → skipWs fuel (f ++ t) = some t := by
  have main : ∀ n (f : Bytes), f.length ≤ n → Filler f → ∀ fuel, f.length ≤ fuel → skipWs fuel (f ++ t) = some t := by
    intro n
    induction n with
    | zero =>
      intro f hl _ fuel _
      obtain rfl : f = [] := List.length_eq_zero_iff.1 (by omega)
      exact skipWs_solid h fuel
    | succ n ih =>
      intro f hl hf fuel hfu
      cases hf with
      | nil => exact skipWs_solid h fuel
      | @blank c f hc hf =>
        obtain ⟨m, rfl⟩ : ∃ m, fuel = m + 1 := ⟨fuel - 1, by simp at hfu; omega⟩
        have hs : skipSpaces (c :: (f ++ t)) = skipSpaces (f ++ t) := by
          unfold skipSpaces; rw [List.dropWhile_cons_of_pos ((isSpace_iff c).2 hc)]
        have hne : skipSpaces (c :: (f ++ t)) ≠ c :: (f ++ t) := by
          intro e
          have := (skipSpaces_suffix (f ++ t)).length_le
          rw [← hs, e] at this
          simp at this
          omega
        -- the white space at the start of the rest
        have key : ∀ f : Bytes, Filler f → ∃ f', Filler f' ∧ f'.length ≤ f.length ∧ skipSpaces (f ++ t) = f' ++ t := by
          intro f hf
          induction hf with
          | nil => exact ⟨[], .nil, Nat.le_refl _, skipSpaces_blank (b := []) (fun c hc => by cases hc) h.1⟩
          | @blank c f hc _ ih =>
            obtain ⟨f', h1, h2, h3⟩ := ih
            refine ⟨f', h1, by simp; omega, ?_⟩
            rw [← h3]
            exact List.dropWhile_cons_of_pos ((isSpace_iff c).2 hc)
          | @comment body f hb hf _ =>
            refine ⟨b!"/*" ++ body ++ b!"*/" ++ f, .comment hb hf, Nat.le_refl _, skipSpaces_blank (b := []) (fun c hc => by cases hc) ?_⟩
            exact firm_cons (by decide)
        obtain ⟨f', h1, h2, h3⟩ := key f hf
        show skipWs (m + 1) (c :: (f ++ t)) = _
        rw [skipWs, if_pos hne, hs, h3]
        simp at hl hfu
        exact ih f' (by omega) h1 m (by omega)
      | @comment body f hb hf =>
        obtain ⟨m, rfl⟩ : ∃ m, fuel = m + 1 := ⟨fuel - 1, by simp at hfu; omega⟩
        have e : b!"/*" ++ body ++ b!"*/" ++ f ++ t = b!"/*" ++ (body ++ (b!"*/" ++ (f ++ t))) := by simp
        rw [e, skipWs]
        have h1 : skipSpaces (b!"/*" ++ (body ++ (b!"*/" ++ (f ++ t)))) = b!"/*" ++ (body ++ (b!"*/" ++ (f ++ t))) :=
          skipSpaces_blank (b := []) (fun c hc => by cases hc) (firm_cons (by decide))
        rw [h1]
        simp only [ne_eq, not_true_eq_false, if_false]
        unfold parseComment
        rw [str_self]
        simp only
        rw [afterComment_reads hb]
        simp at hl hfu
        exact ih f (by omega) hf m (by omega)
  exact main _ f (Nat.le_refl _) hf

theorem line_group {f b1 b2 : Bytes} {es : List Bytes} {te : Bytes} (hf : Filler f) (hb1 : Blank b1) (hb2 : Blank b2) (h : Entries NoA es te) (r : Bytes) :
    line (f ++ b!"GROUP" ++ b1 ++ b!"(" ++ b2 ++ te ++ b!")" ++ r) = some (some es, r) := by
  have e : f ++ b!"GROUP" ++ b1 ++ b!"(" ++ b2 ++ te ++ b!")" ++ r = f ++ (b!"GROUP" ++ (b1 ++ 40 :: ((b2 ++ te) ++ 41 :: r))) := by simp
  unfold line
  rw [e, skipWs_filler (t := b!"GROUP" ++ (b1 ++ 40 :: ((b2 ++ te) ++ 41 :: r))) hf ⟨firm_cons (by decide), by simp⟩ _ (by simp)]
  simp only
  rw [parseGroup_reads hb1 hb2 h]

theorem line_format {f b1 b2 a b3 : Bytes} (hf : Filler f) (hb1 : Blank b1) (hb2 : Blank b2) (ha : IsWord a) (hb3 : Blank b3) (r : Bytes) :
    line (f ++ b!"OUTPUT_FORMAT" ++ b1 ++ b!"(" ++ b2 ++ a ++ b3 ++ b!")" ++ r) = some (some [], r) := by
  have e : f ++ b!"OUTPUT_FORMAT" ++ b1 ++ b!"(" ++ b2 ++ a ++ b3 ++ b!")" ++ r
      = f ++ (b!"OUTPUT_FORMAT" ++ (b1 ++ 40 :: ((b2 ++ a ++ b3) ++ 41 :: r))) := by simp
  unfold line
  rw [e, skipWs_filler (t := b!"OUTPUT_FORMAT" ++ (b1 ++ 40 :: ((b2 ++ a ++ b3) ++ 41 :: r))) hf ⟨firm_cons (by decide), by simp⟩ _ (by simp)]
  simp only
  have hg : parseGroup (b!"OUTPUT_FORMAT" ++ (b1 ++ 40 :: ((b2 ++ a ++ b3) ++ 41 :: r))) = .empty := by
    unfold parseGroup command
    rw [str_other (c := 71) rfl (by simp)]
  rw [hg, parseOutputFormat_reads hb1 hb2 ha hb3]

theorem line_done {f : Bytes} (hf : Filler f) : line f = some (none, []) := by
  have := skipWs_filler (t := []) hf ⟨(fun c hc => by cases hc), (by simp)⟩ f.length (Nat.le_refl _)
  rw [List.append_nil] at this
  unfold line
  rw [this]
  decide +kernel

theorem parse_reads {args : List Bytes} {t : Bytes} (h : ScriptText NoA args t) :
    ∀ fuel acc, t.length < fuel → parse fuel acc t = .ok (acc ++ args) := by
  induction h with
  | done hf =>
    intro fuel acc hfu
    obtain ⟨n, rfl⟩ : ∃ n, fuel = n + 1 := ⟨fuel - 1, by omega⟩
    rw [parse, line_done hf]
    simp
  | @group f b1 b2 es te args t hf hb1 hb2 he _ ih =>
    intro fuel acc hfu
    obtain ⟨n, rfl⟩ : ∃ n, fuel = n + 1 := ⟨fuel - 1, by omega⟩
    rw [parse, line_group hf hb1 hb2 he]
    simp only [Option.getD_some]
    split
    · rw [ih n _ (by simp at hfu; omega), List.append_assoc]
    · next hne =>
      have hne : t = [] := by simpa using hne
      subst hne
      have := ih 1 (acc ++ es) (by simp)
      rw [parse] at this
      have h0 : line ([] : Bytes) = some (none, []) := by decide +kernel
      rw [h0] at this
      simp at this
      rw [this]
      simp
  | @format f b1 b2 a b3 args t hf hb1 hb2 ha hb3 _ ih =>
    intro fuel acc hfu
    obtain ⟨n, rfl⟩ : ∃ n, fuel = n + 1 := ⟨fuel - 1, by omega⟩
    rw [parse, line_format hf hb1 hb2 ha hb3]
    simp only [Option.getD_some, List.append_nil]
    split
    · rw [ih n _ (by simp at hfu; omega)]
    · next hne =>
      have hne : t = [] := by simpa using hne
      subst hne
      have := ih 1 acc (by simp)
      rw [parse] at this
      have h0 : line ([] : Bytes) = some (none, []) := by decide +kernel
      rw [h0] at this
      simp at this
      rw [this]
      simp

/-- **C81** is violated: a well-formed group with a file name that begins with `A` is rejected. -/
theorem C81_group_words_violated :
    ∃ args t, ScriptText (fun _ => True) args t ∧ ∀ fuel, parse (fuel + 1) [] t = .error := by
  refine ⟨[b!"App.o"], b!"GROUP ( App.o )", ?_, fun fuel => ?_⟩
  · exact .group (Ok := fun _ => True) (f := []) (b1 := b!" ") (b2 := b!" ") (te := b!"App.o ") (t := []) .nil
      (by unfold Blank; decide +kernel) (by unfold Blank; decide +kernel)
      (.last (a := b!"App.o") (sp := b!" ") (by constructor <;> decide +kernel) trivial (by unfold Blank; decide +kernel)) (.done .nil)
  · rw [parse, show line b!"GROUP ( App.o )" = none by decide +kernel]

/-- **C81**, the part that holds: a well-formed script none of whose group words begins with `A` is
read as the arguments it names, in order. What is missing: words that begin with `A`
(`C81_group_words_violated`). -/
theorem C81_group_words_partial {args : List Bytes} {t : Bytes} (h : ScriptText NoA args t) (fuel : Nat) (hf : t.length < fuel) :
    parse fuel [] t = .ok args := parse_reads h fuel [] hf

/-- the script a C library installs -/
example : ScriptText NoA [b!"/lib/libc.so.6", b!"--as-needed", b!"/lib/ld.so", b!"libm.a"]
    b!"/* ld script */ OUTPUT_FORMAT(elf64-x86-64) GROUP ( /lib/libc.so.6 AS_NEEDED ( /lib/ld.so libm.a ) )" := by
  have bl : ∀ t : Bytes, (t.all fun c => decide (c ∈ blankChars)) = true → Blank t := fun t h c hc => by
    simpa using List.all_eq_true.1 h c hc
  refine .format (Ok := NoA) (f := b!"/* ld script */ ") (b1 := []) (b2 := []) (a := b!"elf64-x86-64") (b3 := [])
    (t := b!" GROUP ( /lib/libc.so.6 AS_NEEDED ( /lib/ld.so libm.a ) )") ?_ (bl _ rfl) (bl _ rfl) (by constructor <;> decide +kernel) (bl _ rfl) ?_
  · exact .comment (body := b!" ld script ") (f := b!" ") (by decide +kernel) (.blank (by decide +kernel) .nil)
  refine .group (Ok := NoA) (f := b!" ") (b1 := b!" ") (b2 := b!" ") (te := b!"/lib/libc.so.6 AS_NEEDED ( /lib/ld.so libm.a ) ") (t := [])
    (es := [b!"/lib/libc.so.6", b!"--as-needed", b!"/lib/ld.so", b!"libm.a"]) (args := [])
    (.blank (by decide +kernel) .nil) (bl _ (by decide +kernel)) (bl _ (by decide +kernel)) ?_ (.done .nil)
  refine .word (a := b!"/lib/libc.so.6") (sp := b!" ") (t := b!"AS_NEEDED ( /lib/ld.so libm.a ) ")
    (by constructor <;> decide +kernel) (by unfold NoA; decide) (bl _ (by decide +kernel)) (by decide) ?_
  refine .asNeeded (b1 := b!" ") (b2 := b!" ") (tw := b!"/lib/ld.so libm.a ") (ws := [b!"/lib/ld.so", b!"libm.a"]) (sp := b!" ") (t := []) (args := [])
    (bl _ (by decide +kernel)) (bl _ (by decide +kernel)) ?_ (bl _ (by decide +kernel)) .nil
  refine .more (a := b!"/lib/ld.so") (sp := b!" ") (t := b!"libm.a ") (by constructor <;> decide +kernel) (bl _ (by decide +kernel)) (by decide) ?_
  exact .last (a := b!"libm.a") (sp := b!" ") (by constructor <;> decide +kernel) (bl _ (by decide +kernel))

end Dld.Script
