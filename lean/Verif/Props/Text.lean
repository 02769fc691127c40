import Verif.Spec.Text
import Verif.Props.Errors
/-! # The error messages tell the failures apart -/
namespace Dld
open Spec

instance (s : Bytes) : Decidable (Printable s) := inferInstanceAs (Decidable (∀ c ∈ s, 32 ≤ c ∧ c < 127))

theorem debugByte_plain {c : UInt8} (h : 32 ≤ c ∧ c < 127) : debugByte c = if c = 34 ∨ c = 92 then [92, c] else [c] := by
  obtain ⟨h1, h2⟩ := h
  have h1' : (32 : Nat) ≤ c.toNat := UInt8.le_iff_toNat_le.mp h1
  have h2' : c.toNat < 127 := UInt8.lt_iff_toNat_lt.mp h2
  have key : ∀ n : Nat, n < 127 → 32 ≤ n → debugByte (UInt8.ofNat n) =
      if UInt8.ofNat n = 34 ∨ UInt8.ofNat n = 92 then [92, UInt8.ofNat n] else [UInt8.ofNat n] := by decide +kernel
  have := key c.toNat h2' h1'
  rwa [UInt8.ofNat_toNat] at this

/-- quoting loses nothing -/
theorem debugText_inj {s t : Bytes} (hs : Printable s) (ht : Printable t) (h : debugText s = debugText t) : s = t := by
  replace h : s.flatMap debugByte = t.flatMap debugByte := by
    simpa [debugText] using h
  induction s generalizing t with
  | nil =>
    cases t with
    | nil => rfl
    | cons c t =>
      have := debugByte_plain (ht c (by simp))
      rw [List.flatMap_cons, this] at h
      split at h <;> cases h
  | cons c s ih =>
    cases t with
    | nil =>
      have := debugByte_plain (hs c (by simp))
      rw [List.flatMap_cons, this] at h
      split at h <;> cases h
    | cons d t =>
      have e1 := debugByte_plain (hs c (by simp))
      have e2 := debugByte_plain (ht d (by simp))
      rw [List.flatMap_cons, List.flatMap_cons, e1, e2] at h
      have hs' : Printable s := fun c hc => hs c (by simp [hc])
      have ht' : Printable t := fun c hc => ht c (by simp [hc])
      split at h <;> split at h
      · simp only [List.cons_append, List.nil_append, List.cons.injEq, true_and] at h
        rw [h.1, ih hs' ht' h.2]
      · rename_i hd
        simp only [List.cons_append, List.nil_append, List.cons.injEq] at h
        exact absurd (.inr h.1.symm) hd
      · rename_i hc _
        simp only [List.cons_append, List.nil_append, List.cons.injEq] at h
        exact absurd (.inr h.1) hc
      · simp only [List.cons_append, List.nil_append, List.cons.injEq] at h
        rw [h.1, ih hs' ht' h.2]

/-- two texts split at the first place where a byte occurs -/
theorem split_at {x : UInt8} {a b r s : Bytes} (ha : ∀ c ∈ a, c ≠ x) (hb : ∀ c ∈ b, c ≠ x) (h : a ++ x :: r = b ++ x :: s) :
    a = b ∧ r = s := by
  induction a generalizing b with
  | nil =>
    cases b with
    | nil => simpa using h
    | cons c b =>
      simp only [List.nil_append, List.cons_append, List.cons.injEq] at h
      exact absurd h.1.symm (hb c (by simp))
  | cons d a ih =>
    cases b with
    | nil =>
      simp only [List.nil_append, List.cons_append, List.cons.injEq] at h
      exact absurd h.1 (ha d (by simp))
    | cons c b =>
      simp only [List.cons_append, List.cons.injEq] at h
      have := ih (fun c hc => ha c (by simp [hc])) (b := b) (fun c hc => hb c (by simp [hc])) h.2
      exact ⟨by rw [h.1, this.1], this.2⟩

theorem joinComma_inj {u v : List Bytes} (hu : u ≠ []) (hv : v ≠ []) (pu : ∀ n ∈ u, PlainName n) (pv : ∀ n ∈ v, PlainName n)
    (h : joinComma u = joinComma v) : u = v := by
  induction u generalizing v with
  | nil => exact absurd rfl hu
  | cons a u ih =>
    cases v with
    | nil => exact absurd rfl hv
    | cons b v =>
      have ha : ∀ c ∈ a, c ≠ 44 := fun c hc => ((pu a (by simp)).2 c hc).2
      have hb : ∀ c ∈ b, c ≠ 44 := fun c hc => ((pv b (by simp)).2 c hc).2
      cases u with
      | nil =>
        cases v with
        | nil => simpa [joinComma] using h
        | cons b' v =>
          have h : a = b ++ b!", " ++ joinComma (b' :: v) := h
          have : (44 : UInt8) ∈ a := by rw [h]; simp
          exact absurd rfl (ha 44 this)
      | cons a' u =>
        cases v with
        | nil =>
          have h : a ++ b!", " ++ joinComma (a' :: u) = b := h
          have : (44 : UInt8) ∈ b := by rw [← h]; simp
          exact absurd rfl (hb 44 this)
        | cons b' v =>
          have h : a ++ b!", " ++ joinComma (a' :: u) = b ++ b!", " ++ joinComma (b' :: v) := h
          rw [List.append_assoc, List.append_assoc] at h
          obtain ⟨e, h⟩ := split_at ha hb h
          have h : joinComma (a' :: u) = joinComma (b' :: v) := (List.cons.inj h).2
          rw [e, ih (v := b' :: v) (by simp) (by simp) (fun n hn => pu n (by simp [hn])) (fun n hn => pv n (by simp [hn])) h]

/-- up to the first space, the list is a bracket and a name, perhaps with a comma -/
theorem joinComma_word {v : List Bytes} (pv : ∀ n ∈ v, PlainName n) {a r : Bytes} (ha : ∀ c ∈ a, c ≠ 32)
    (h : joinComma v = a ++ 32 :: r) : (44 : UInt8) ∈ a := by
  match v, h with
  | [], h => cases a <;> cases h
  | [x], h =>
    have h : x = a ++ 32 :: r := h
    have : (32 : UInt8) ∈ x := by rw [h]; simp
    exact absurd rfl (((pv x (by simp)).2 _ this).1)
  | x :: y :: v, h =>
    have h : x ++ b!", " ++ joinComma (y :: v) = a ++ 32 :: r := h
    have h : (x ++ [44]) ++ 32 :: joinComma (y :: v) = a ++ 32 :: r := by rw [← h]; simp
    have hx : ∀ c ∈ x ++ [44], c ≠ 32 := by
      intro c hc
      rcases List.mem_append.mp hc with hc | hc
      · exact ((pv x (by simp)).2 c hc).1
      · rw [List.mem_singleton.mp hc]; decide
    rw [← (split_at hx ha h).1]; simp

theorem printable_append {a b : Bytes} (ha : Printable a) (hb : Printable b) : Printable (a ++ b) := by
  intro c hc
  rcases List.mem_append.mp hc with h | h
  · exact ha c h
  · exact hb c h

theorem joinComma_printable {v : List Bytes} (pv : ∀ n ∈ v, PlainName n) : Printable (joinComma v) := by
  induction v with
  | nil => intro c hc; cases hc
  | cons x v ih =>
    cases v with
    | nil => exact (pv x (by simp)).1
    | cons y v =>
      exact printable_append (printable_append (pv x (by simp)).1 (by decide)) (ih fun n hn => pv n (by simp [hn]))

theorem text_printable {cause : Bytes} {k : ErrKind} (h : PlainCause k) : Printable (k.text cause) := by
  cases k with
  | input => cases h
  | strtab => show Printable b!"Symbol not found in strtab."; decide
  | alreadyDefined n r =>
    exact printable_append (printable_append (printable_append h.1.1 (by decide)) (by decide)) h.2.1
  | nonAbiReloc ty =>
    have : ∀ t ∈ [12, 13, 14, 15], Printable ((ErrKind.nonAbiReloc t).text []) := by decide
    exact this ty h
  | undefined names => exact printable_append (printable_append (by decide) (joinComma_printable h.2)) (by decide)

/-- the first place where a byte occurs -/
theorem first_at {x : UInt8} {l : Bytes} (h : x ∈ l) : ∃ a b, l = a ++ x :: b ∧ ∀ c ∈ a, c ≠ x := by
  induction l with
  | nil => cases h
  | cons c l ih =>
    by_cases hc : c = x
    · exact ⟨[], l, by rw [hc]; rfl, by simp⟩
    · have h : x ∈ l := by
        rcases List.mem_cons.mp h with h | h
        · exact absurd h.symm hc
        · exact h
      obtain ⟨a, b, e, ha⟩ := ih h
      refine ⟨c :: a, b, by rw [e]; rfl, ?_⟩
      intro d hd
      rcases List.mem_cons.mp hd with hd | hd
      · rw [hd]; exact hc
      · exact ha d hd

theorem kind_text_inj {cause cause' : Bytes} {k k' : ErrKind} (hk : PlainCause k) (hk' : PlainCause k')
    (h : k.text cause = k'.text cause') : SameCause k k' := by
  have already : ∀ {n r} (x : Bytes) {r' : Bytes}, PlainName n → (∀ c ∈ x, c ≠ 32) →
      (ErrKind.alreadyDefined n r).text [] = x ++ 32 :: r' → n = x ∧ r' = b!"symbol already defined in " ++ r.full := by
    intro n r x r' hn hx h
    have h : n ++ 32 :: (b!"symbol already defined in " ++ r.full) = x ++ 32 :: r' := by
      rw [← h]; simp [ErrKind.text]
    have := split_at (fun c hc => (hn.2 c hc).1) hx h
    exact ⟨this.1, this.2.symm⟩
  have abi : ∀ t ∈ [12, 13, 14, 15], ∃ r, (ErrKind.nonAbiReloc t).text [] = b!"Relocation" ++ 32 :: r ∧ r.head? ≠ some 115 := by
    intro t ht
    exact ⟨((ErrKind.nonAbiReloc t).text []).drop 11, (by decide : ∀ t ∈ [12, 13, 14, 15], (ErrKind.nonAbiReloc t).text [] =
      b!"Relocation" ++ 32 :: ((ErrKind.nonAbiReloc t).text []).drop 11 ∧
      (((ErrKind.nonAbiReloc t).text []).drop 11).head? ≠ some 115) t ht⟩
  have list : ∀ {v n r}, PlainCause (.undefined v) → PlainName n → (ErrKind.undefined v).text [] ≠ (ErrKind.alreadyDefined n r).text [] := by
    intro v n r hv hn h
    have hs : ∀ c ∈ n, c ≠ 32 := fun c hc => (hn.2 c hc).1
    have h : 91 :: (joinComma v ++ [93]) = n ++ 32 :: (b!"symbol already defined in " ++ r.full) := by
      have h : b!"[" ++ joinComma v ++ b!"]" = n ++ b!" " ++ b!"symbol already defined in " ++ r.full := h
      simpa using h
    cases n with
    | nil => cases h
    | cons c n =>
      simp only [List.cons_append, List.cons.injEq] at h
      obtain ⟨_, h⟩ := h
      -- the space is inside the list or behind it
      by_cases hp : (32 : UInt8) ∈ joinComma v
      · obtain ⟨a, b, e, ha⟩ := first_at hp
        have hm := joinComma_word hv.2 ha e
        rw [e, List.append_assoc, List.cons_append] at h
        have := (split_at ha (fun c hc => hs c (by simp [hc])) h).1
        rw [this] at hm
        exact (hn.2 44 (by simp [hm])).2 rfl
      · have : (32 : UInt8) ∈ joinComma v ++ [93] := by rw [h]; simp
        rcases List.mem_append.mp this with h | h
        · exact hp h
        · simp at h
  cases k with
  | input => cases hk
  | strtab =>
    cases k' with
    | input => cases hk'
    | strtab => rfl
    | alreadyDefined n r =>
      have := (already b!"Symbol" (r := r) (r' := b!"not found in strtab.") hk'.1 (by decide) h.symm).2
      cases this
    | nonAbiReloc t =>
      obtain ⟨r, e, _⟩ := abi t hk'
      have h : b!"Symbol not found in strtab." = (ErrKind.nonAbiReloc t).text [] := h
      rw [e] at h; cases h
    | undefined v => cases h
  | alreadyDefined n r =>
    cases k' with
    | input => cases hk'
    | strtab =>
      have := (already b!"Symbol" (r := r) (r' := b!"not found in strtab.") hk.1 (by decide) h).2
      cases this
    | alreadyDefined n' r' =>
      have h' : (ErrKind.alreadyDefined n r).text [] = n' ++ 32 :: (b!"symbol already defined in " ++ r'.full) := by
        have h : (ErrKind.alreadyDefined n r).text [] = (ErrKind.alreadyDefined n' r').text [] := h
        rw [h]; simp [ErrKind.text]
      have := already n' hk.1 (fun c hc => (hk'.1.2 c hc).1) h'
      exact ⟨this.1, (List.append_cancel_left this.2).symm⟩
    | nonAbiReloc t =>
      obtain ⟨r', e, h0⟩ := abi t hk'
      have h : (ErrKind.alreadyDefined n r).text [] = (ErrKind.nonAbiReloc t).text [] := h
      rw [e] at h
      have := (already _ hk.1 (by decide) h).2
      rw [this] at h0
      exact absurd rfl h0
    | undefined v => exact absurd h.symm (list hk' hk.1)
  | nonAbiReloc t =>
    obtain ⟨r', e, h0⟩ := abi t hk
    cases k' with
    | input => cases hk'
    | strtab =>
      have h : (ErrKind.nonAbiReloc t).text [] = b!"Symbol not found in strtab." := h
      rw [e] at h; cases h
    | alreadyDefined n r =>
      have h : (ErrKind.nonAbiReloc t).text [] = (ErrKind.alreadyDefined n r).text [] := h
      rw [e] at h
      have := (already _ hk'.1 (by decide) h.symm).2
      rw [this] at h0
      exact absurd rfl h0
    | nonAbiReloc t' =>
      have := (by decide : ∀ t ∈ [12, 13, 14, 15], ∀ t' ∈ [12, 13, 14, 15],
        (ErrKind.nonAbiReloc t).text [] = (ErrKind.nonAbiReloc t').text [] → t = t') t hk t' hk' h
      subst this; rfl
    | undefined v =>
      have h : (ErrKind.nonAbiReloc t).text [] = (ErrKind.undefined v).text [] := h
      rw [e] at h; cases h
  | undefined v =>
    cases k' with
    | input => cases hk'
    | strtab => cases h
    | alreadyDefined n r => exact absurd h (list hk hk'.1)
    | nonAbiReloc t =>
      obtain ⟨r', e, h0⟩ := abi t hk'
      have h : (ErrKind.undefined v).text [] = (ErrKind.nonAbiReloc t).text [] := h
      rw [e] at h; cases h
    | undefined v' =>
      have h : b!"[" ++ joinComma v ++ b!"]" = b!"[" ++ joinComma v' ++ b!"]" := h
      have h : joinComma v = joinComma v' := by simpa using h
      rw [joinComma_inj hk.1 hk'.1 hk.2 hk'.2 h]; rfl

/-- an object file that needs two symbols with short names -/
def fewElf : ElfFile where
  isObjectFile := true
  sectionHeaders := [{}, { demoSh SHT_PROGBITS 6 16 16 with sh_name := 1 }]
  secName := AMap.get? [(0, []), (1, b!".text")]
  syms := [{}, { demoSym STT_FUNC 1 0 16 with st_name := 1 }, { demoSym 0 0 0 0 with st_name := 2 }, { demoSym 0 0 0 0 with st_name := 3 }]
  symName := AMap.get? [(0, []), (1, b!"_start"), (2, b!"f"), (3, b!"g")]
  shdrRelocs := []
  dynsyms := []
  dynName := fun _ => none

/-- an object file that needs one symbol, whose name has a comma and a space -/
def commaElf : ElfFile :=
  { fewElf with
    syms := [{}, { demoSym STT_FUNC 1 0 16 with st_name := 1 }, { demoSym 0 0 0 0 with st_name := 2 }]
    symName := AMap.get? [(0, []), (1, b!"_start"), (2, b!"f, g")] }

def fewEnv : Env := tableEnv [(mainPath, List.replicate 16 0x90)] [(List.replicate 16 0x90, fewElf)] []
def commaEnv : Env := tableEnv [(mainPath, List.replicate 16 0x90)] [(List.replicate 16 0x90, commaElf)] []
def fewLinker : Linker := { options := Options.default, objects := [mainPath], archives := [] }

theorem few_link : Linker.link fewEnv fewLinker LinkSched.id 5 = some (.error (.err Options.default.output (.undefined [b!"f", b!"g"]))) := by
  decide +kernel

theorem comma_link : Linker.link commaEnv fewLinker LinkSched.id 5 = some (.error (.err Options.default.output (.undefined [b!"f, g"]))) := by
  decide +kernel

namespace Cli

/-- **C139** is violated: a link that lacks two symbols and a link that lacks one print the same. -/
theorem C139_message_violated : ∃ (env env' : Env) (l : Linker) (p : Path) (k k' : ErrKind),
    Linker.link env l LinkSched.id 5 = some (.error (.err p k)) ∧ Linker.link env' l LinkSched.id 5 = some (.error (.err p k')) ∧
    ¬ SameCause k k' ∧ ∀ arg cause, (Report.link p.full k).printed arg cause = (Report.link p.full k').printed arg cause := by
  refine ⟨fewEnv, commaEnv, fewLinker, _, _, _, few_link, comma_link, ?_, fun _ _ => rfl⟩
  show ¬ ErrKind.undefined [b!"f", b!"g"] = ErrKind.undefined [b!"f, g"]
  decide

/-- **C139**, the part that holds: two failures of the linker that print the same on standard error are about the same file and have the same
cause, if the names in them have no spaces or commas and the paths no backquotes. What is missing: other names (`C139_message_violated`), and
errors whose text comes from the operating system or the parser. -/
theorem C139_message_partial {arg arg' : CliErr → Bytes} {cause cause' : Bytes} {p p' : Bytes} {k k' : ErrKind} (hp : PlainPath p)
    (hp' : PlainPath p') (hk : PlainCause k) (hk' : PlainCause k')
    (h : (Report.link p k).printed arg cause = (Report.link p' k').printed arg' cause') : p = p' ∧ SameCause k k' := by
  have pr : ∀ {c p k}, PlainPath p → PlainCause k → Printable (errorText c p k) := fun hp hk =>
    printable_append (printable_append (printable_append (by decide) hp.1) (by decide)) (text_printable hk)
  have h : debugText (errorText cause p k) = debugText (errorText cause' p' k') := by
    have h : b!"Error: " ++ debugText (errorText cause p k) ++ [10] = b!"Error: " ++ debugText (errorText cause' p' k') ++ [10] := h
    exact List.append_cancel_left (List.append_cancel_right h)
  have h := debugText_inj (pr hp hk) (pr hp' hk') h
  have h : p ++ 96 :: (b!": " ++ k.text cause) = p' ++ 96 :: (b!": " ++ k'.text cause') := by
    have h : b!"`" ++ p ++ b!"`: " ++ k.text cause = b!"`" ++ p' ++ b!"`: " ++ k'.text cause' := h
    simpa using h
  obtain ⟨e, h⟩ := split_at hp.2 hp'.2 h
  exact ⟨e, kind_text_inj hk hk' (List.append_cancel_left h)⟩

/-- what is printed when `f` and `g` are missing -/
example (arg : CliErr → Bytes) (cause : Bytes) : (Report.link Options.default.output.full (.undefined [b!"f", b!"g"])).printed arg cause =
    b!"Error: \"`./out`: [f, g]\"\n" := rfl

/-- No other failure with plain names prints that. -/
example {arg : CliErr → Bytes} {cause : Bytes} {p : Bytes} {k : ErrKind} (hp : PlainPath p) (hk : PlainCause k)
    (h : (Report.link p k).printed arg cause = b!"Error: \"`./out`: [f, g]\"\n") :
    p = b!"./out" ∧ SameCause k (.undefined [b!"f", b!"g"]) :=
  C139_message_partial (arg' := arg) (cause' := cause) hp (by unfold PlainPath; decide) hk
    (by unfold PlainCause PlainName; decide) (h.trans rfl)

/-- quotes are escaped -/
example (arg : CliErr → Bytes) (cause : Bytes) : (Report.notFound b!"a\"b").printed arg cause = b!"Error: \"Couldn't find library a\\\"b\"\n" := rfl

end Cli
end Dld
