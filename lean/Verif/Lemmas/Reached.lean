import Verif.Spec.Reached
import Verif.Lemmas.Unused
import Verif.Lemmas.Sound2
/-! # Worlds whose archives give the same answers -/
namespace Dld
open Writer Spec StringTable

namespace Linker
variable {env env' : Env} {l : Linker} {A : Name → Prop} {w w' : Writer} {log : List Call} {members : List Loaded} {N : List Call → Name → Prop}

theorem toElfObject_same (h : SameAnswers env env' l A) (p : Path) (d : Bytes) : toElfObject env' p d = toElfObject env p d := by
  unfold toElfObject; rw [h.parser]

theorem readAll_same (h : SameAnswers env env' l A) : ∀ (ps : List Path), (∀ p ∈ ps, p ∈ l.objects) → readAll env' ps = readAll env ps
  | [], _ => rfl
  | p :: ps, hp => by
    unfold readAll
    rw [h.files p (.inl (hp p (by simp))), readAll_same h ps fun q hq => hp q (by simp [hq])]

theorem loadAll_same (h : SameAnswers env env' l A) (w : Writer) : loadAll env' l w = loadAll env l w := by
  unfold loadAll
  rw [readAll_same h _ fun _ h => h]
  have : loadObjects env' = loadObjects env := by
    funext st e
    unfold loadObjects
    rw [toElfObject_same h]
  rw [this]

theorem findInLibs_same (h : SameAnswers env env' l A) (order : Nat → List SymbolRef → List SymbolRef) (und : List SymbolRef) (w : Writer) :
    findInLibs env' l order und w = findInLibs env l order und w := by
  unfold findInLibs
  refine foldM'_congr fun b a ha => ?_
  obtain ⟨p, i⟩ := a
  have hp : p ∈ l.options.sharedLibs.map (·.1) := List.mem_of_getElem? (List.mem_zipIdx_iff_getElem?.1 ha)
  simp only [searchLib, h.files p (.inr hp), h.parser]

theorem linkMember_same (h : SameAnswers env env' l A) {p : Path} {ar ar' : ArFile} {n : Name} {m : Bytes} (hs : SameAnswer ar ar' n) (hm : ar.memberOfSymbol n = some m)
    (w : Writer) : linkMember env' p ar' w m = linkMember env p ar w m := by
  unfold linkMember
  rw [hs.2 m hm]
  cases ar.get m with
  | none => rfl
  | some d => simp only [unwrap, ok_bind, toElfObject_same h]

/-- one archive -/
theorem searchArchive_same (h : SameAnswers env env' l A) {orderU : Nat → List SymbolRef → List SymbolRef} {orderM : Nat → List Bytes → List Bytes}
    (hu : ∀ i l, (orderU i l).Perm l) (hm : ∀ i l, (orderM i l).Perm l) {w : Writer} {und : List SymbolRef} {p : Path} (i : Nat) (hp : p ∈ l.archives)
    (hA : ∀ r ∈ und, ∀ n, w.symbolName r = .ok (some n) → A n) :
    searchArchive env' orderU orderM (w, und) (p, i) = searchArchive env orderU orderM (w, und) (p, i) := by
  rcases h.archives p hp with ⟨h1, h2⟩ | ⟨ar, ar', h1, h2, hs⟩
  · simp only [searchArchive]
    have key : ∀ (e : Env) (f : ArFile → M (Writer × List SymbolRef)), (e.read p).bind e.parseAr = none →
        (do let data ← orErr p .input (e.read p); let ar ← orErr p .input (e.parseAr data); f ar) = (.error (.err p .input) : M (Writer × List SymbolRef)) := by
      intro e f he
      cases hr : e.read p with
      | none => rfl
      | some d =>
        rw [hr, Option.bind_some] at he
        simp only [orErr, ok_bind, he]
        rfl
    exact (key env' _ h2).trans (key env _ h1).symm
  · simp only [Option.bind_eq_some_iff] at h1 h2
    obtain ⟨d, hd, ha⟩ := h1
    obtain ⟨d', hd', ha'⟩ := h2
    simp only [searchArchive, hd, hd', orErr, ok_bind, ha, ha']
    have he : foldM' (searchArEntry ar' w) ([], []) (orderU i und) = foldM' (searchArEntry ar w) ([], []) (orderU i und) := by
      refine foldM'_congr fun b r hr => ?_
      unfold searchArEntry
      cases hn : w.symbolName r with
      | error e => rfl
      | ok o =>
        cases o with
        | none => rfl
        | some n => simp only [ok_bind, (hs n (hA r ((hu i und).mem_iff.1 hr) n hn)).1]
    rw [he]
    cases hf : foldM' (searchArEntry ar w) ([], []) (orderU i und) with
    | error e => rfl
    | ok st =>
      obtain ⟨found, ms⟩ := st
      simp only [ok_bind]
      have hms : ∀ m ∈ ms, ∃ n, A n ∧ ar.memberOfSymbol n = some m := by
        have : ∀ (rs : List SymbolRef) (st st' : List SymbolRef × List Bytes), (∀ r ∈ rs, r ∈ und) → (∀ m ∈ st.2, ∃ n, A n ∧ ar.memberOfSymbol n = some m) →
            foldM' (searchArEntry ar w) st rs = .ok st' → ∀ m ∈ st'.2, ∃ n, A n ∧ ar.memberOfSymbol n = some m := by
          intro rs
          induction rs with
          | nil => intro st st' _ h0 hf; cases hf; exact h0
          | cons r rs ih =>
            intro st st' hr h0 hf
            rw [foldM'_cons, bind_ok] at hf
            obtain ⟨st1, h1, h2⟩ := hf
            refine ih st1 st' (fun r h => hr r (by simp [h])) ?_ h2
            simp only [searchArEntry, bind_ok] at h1
            obtain ⟨o, ho, h1⟩ := h1
            cases o with
            | none => cases h1; exact h0
            | some n =>
              simp only [] at h1
              cases hmn : ar.memberOfSymbol n with
              | none => rw [hmn] at h1; cases h1; exact h0
              | some m =>
                rw [hmn] at h1
                cases h1
                intro m' hm'
                simp only [] at hm'
                split at hm'
                · exact h0 m' hm'
                · rcases List.mem_append.1 hm' with h | h
                  · exact h0 m' h
                  · rw [List.mem_singleton.1 h]
                    exact ⟨n, hA r (hr r (by simp)) n ho, hmn⟩
        exact this _ _ _ (fun r hr => (hu i und).mem_iff.1 hr) (by simp) hf
      have : foldM' (linkMember env' p ar') w (orderM i ms) = foldM' (linkMember env p ar) w (orderM i ms) := by
        refine foldM'_congr fun b m hmm => ?_
        obtain ⟨n, hn, hmn⟩ := hms m ((hm i ms).mem_iff.1 hmm)
        exact linkMember_same h (hs n hn) hmn _
      rw [this]

/-- the names in a round are among the names the link can ask for -/
theorem asked_in_round {sched : LinkSched} (hv : sched.Valid) (hn : NamesSmall env l) (hread : ∀ p ∈ l.objects, ∃ d e, env.read p = some d ∧ env.parseElf d = some e)
    (h : State env l (Unmet env l sched.symIter) members log w) {n : Name} (hu : Unmet env l sched.symIter log n) :
    AnyNeeds env l n ∧ ¬ DefinedGlobally env l n := by
  have hc := h.calls hread
  have hfit := hc.symstr_small h.inv.hist hn
  have hc' := calls_spec hv hc h.inv.hist hfit
  obtain ⟨⟨g1, g2, _⟩, _⟩ := hu.spec hv.toSched.symIter (List.prefix_refl _) h.inv.hist hfit
  constructor
  · obtain ⟨s, sec, hm, h0, hb⟩ := g1
    obtain ⟨x, hx, h1, h2, h3⟩ := hc'.mention_iff.2 ⟨sec, hm⟩
    obtain ⟨j, hj⟩ := List.getElem?_of_mem h1
    exact ⟨_, _, j, s, ⟨_, hc'.inputAt hx, hj, h2, h3⟩, h0, hb⟩
  · rintro ⟨s, ⟨x, hx, h1⟩, h0, hb⟩
    obtain ⟨sec, hm⟩ := hc'.mention_iff.1 (⟨x, List.mem_append_left _ hx, h1⟩ : MentionedIn _ s n)
    exact h0 (g2 s sec hm hb)

theorem processArchives_same {sched : LinkSched} (hv : sched.Valid) (h : SameAnswers env env' l A) {q : List Call} {w0 : Writer} {und0 : List SymbolRef}
    (hR : Round l N q w0 und0) (hA : ∀ n, N q n → NotInLibs env l n → A n) (round : Nat) (ps : List Path) (k : Nat) (hps : ∀ p ∈ ps, p ∈ l.archives)
    (members : List Loaded) (log : List Call) (w : Writer) (hS : State env l N members log w) (hq : q <+: log) (und : List SymbolRef)
    (hund : ∀ r ∈ und, r ∈ und0 ∧ ∀ n, NameAt w0 r n → NotInLibs env l n) :
    foldM' (searchArchive env' (sched.undefAr round) (sched.members round)) (w, und) (ps.zipIdx k) =
      foldM' (searchArchive env (sched.undefAr round) (sched.members round)) (w, und) (ps.zipIdx k) := by
  induction ps generalizing k members log w und with
  | nil => rfl
  | cons p ps ih =>
    rw [List.zipIdx_cons, foldM'_cons, foldM'_cons]
    rw [searchArchive_same h (fun i l => hv.undefAr round i l) (fun i l => hv.members round i l) k (hps p (by simp)) (fun r hr n hn => by
      obtain ⟨n', e, h1, h2, _⟩ := hR.name hS hq (hund r hr).1 hn
      cases e
      exact hA n h2 ((hund r hr).2 n h1))]
    cases hx : searchArchive env (sched.undefAr round) (sched.members round) (w, und) (p, k) with
    | error e => rfl
    | ok st =>
      obtain ⟨w1, u1⟩ := st
      obtain ⟨new, xs, b1, b2, _⟩ := processArchives_calls hR hS hq (fun i l => hv.undefAr round i l) (fun i l => hv.members round i l) [p] k
        (fun p' hp' => hps p' (by rw [List.mem_singleton.1 hp']; simp)) hund (w' := w1) (und' := u1) (by
          rw [List.zipIdx_cons, foldM'_cons, hx]; rfl)
      exact ih (k + 1) (fun p' hp' => hps p' (by simp [hp'])) _ _ _ b1 (hq.trans (List.prefix_append _ _)) _ fun r hr => hund r (b2.subset hr)

theorem resolveLoop_same {sched : LinkSched} (hv : sched.Valid) (h : SameAnswers env env' l fun n => AnyNeeds env l n ∧ ¬ DefinedGlobally env l n ∧ NotInLibs env l n)
    (hn : NamesSmall env l) (hread : ∀ p ∈ l.objects, ∃ d e, env.read p = some d ∧ env.parseElf d = some e) :
    ∀ (fuel round : Nat) (members : List Loaded) (log : List Call) (w : Writer), State env l (Unmet env l sched.symIter) members log w →
    resolveLoop env' l sched fuel round (w.undefinedSymbols sched.symIter) w = resolveLoop env l sched fuel round (w.undefinedSymbols sched.symIter) w
  | 0, _, _, _, _, _ => rfl
  | fuel + 1, round, members, log, w, hS => by
    have hR := hS.round hv.toSched.symIter
    have hround : resolveRound env' l sched round (w.undefinedSymbols sched.symIter) w = resolveRound env l sched round (w.undefinedSymbols sched.symIter) w := by
      unfold resolveRound
      rw [findInLibs_same h]
      cases hf : findInLibs env l (sched.undefLib round) (w.undefinedSymbols sched.symIter) w with
      | error e => rfl
      | ok st =>
        obtain ⟨w1, u1⟩ := st
        simp only [ok_bind]
        simp only [findInLibs] at hf
        obtain ⟨new, a1, a2, a3, a4, _⟩ := findInLibs_calls hR hS (List.prefix_refl _) (fun i l => hv.undefLib round i l)
          (l.options.sharedLibs.map (·.1)) 0 (fun p hp => hp) (fun r hr => hr) hf
        have : processArchives env' l sched round u1 w1 = processArchives env l sched round u1 w1 := by
          unfold processArchives
          refine processArchives_same hv h hR (fun n hN hl => ?_) round _ 0 (fun p hp => (hv.archives _).mem_iff.1 hp) _ _ w1 a1 (List.prefix_append _ _) u1 fun r hr => ?_
          · obtain ⟨g1, g2⟩ := asked_in_round hv hn hread hS hN
            exact ⟨g1, g2, hl⟩
          · refine ⟨a3.subset hr, fun n hnm p hp data e hd he s hs hc => ?_⟩
            exact (a4 r (a3.subset hr)).1 hr n hnm ⟨p, hp, data, e, hd, he, s, hs, hc⟩
        rw [this]
    rw [resolveLoop, resolveLoop, hround]
    cases hx : resolveRound env l sched round (w.undefinedSymbols sched.symIter) w with
    | error e => rfl
    | ok st =>
      obtain ⟨w1, cnt⟩ := st
      simp only []
      split
      · rfl
      · obtain ⟨new, xs, b1, _⟩ := resolveRound_calls hv hS hx
        exact resolveLoop_same hv h hn hread fuel (round + 1) _ _ _ b1

/-- the outcome depends only on what the archives answer to the names that some file needs -/
theorem link_same {sched : LinkSched} (hv : sched.Valid) (h : SameAnswers env env' l fun n => AnyNeeds env l n ∧ ¬ DefinedGlobally env l n ∧ NotInLibs env l n)
    (hn : NamesSmall env l) (fuel : Nat) : link env' l sched fuel = link env l sched fuel := by
  rw [link_eq, link_eq]
  congr 1
  unfold gathered
  cases h0 : Writer.new l.options with
  | error e => rfl
  | ok w =>
    simp only [loadAll_same h]
    cases h1 : loadAll env l w with
    | error e => rfl
    | ok w1 =>
      obtain ⟨log, a1, a2⟩ := loadAll_calls (N := Unmet env l sched.symIter) h0 h1
      exact resolveLoop_same hv h hn a2 fuel 0 _ _ _ a1

/-! ## The world with nothing in the indexes but what is asked for -/

theorem memberOfSymbol_only (ar : ArFile) (n : Name) [Decidable (A n)] : (ar.only A).memberOfSymbol n = if A n then ar.memberOfSymbol n else none := by
  unfold ArFile.memberOfSymbol ArFile.only
  induction ar.index with
  | nil => simp [AMap.get?]
  | cons e es ih =>
    obtain ⟨k, v⟩ := e
    simp only [List.filter_cons]
    by_cases hk : A k
    · rw [if_pos (by simpa using hk)]
      simp only [AMap.get?]
      by_cases e : k = n
      · subst e; simp [hk]
      · rw [if_neg e, if_neg e, ih]
    · rw [if_neg (by simpa using hk), ih]
      simp only [AMap.get?]
      by_cases e : k = n
      · subst e; simp [hk]
      · rw [if_neg e]

theorem objectsOf_congr (h : SameAnswers env env' l A) : objectsOf env' l = objectsOf env l := by
  unfold objectsOf
  have : ∀ (xs : List (Path × Nat)), (∀ x ∈ xs, x.1 ∈ l.objects) →
      (xs.filterMap fun x => (env'.read x.1).bind fun d => (env'.parseElf d).bind fun e => if e.isObjectFile then some (⟨.object x.2, x.1, d, e⟩ : Loaded) else none) =
      xs.filterMap fun x => (env.read x.1).bind fun d => (env.parseElf d).bind fun e => if e.isObjectFile then some (⟨.object x.2, x.1, d, e⟩ : Loaded) else none := by
    intro xs
    induction xs with
    | nil => intro _; rfl
    | cons x xs ih =>
      intro hx
      rw [List.filterMap_cons, List.filterMap_cons, ih fun y hy => hx y (by simp [hy])]
      simp only [h.files x.1 (.inl (hx x (by simp))), h.parser]
  exact this _ fun x hx => List.mem_of_getElem? (List.mem_zipIdx_iff_getElem?.1 hx)

theorem reachedEnv_objects : objectsOf (reachedEnv env l) l = objectsOf env l := rfl

theorem reachedEnv_input {p : Path} {d : Bytes} {e : ElfFile} (h : InputAt (reachedEnv env l) l p d e) : Reached env l e := by
  cases h with
  | object hp hd he ho => exact .object hp hd he ho
  | member hp hd ha hn hm he ho =>
    rename_i data ar n m
    have ha : (env.parseAr data).map (·.only (Asked env l)) = some ar := ha
    rw [Option.map_eq_some_iff] at ha
    obtain ⟨ar0, ha0, rfl⟩ := ha
    haveI := Classical.propDecidable (Asked env l n)
    rw [memberOfSymbol_only] at hn
    split at hn
    · next hA =>
      obtain ⟨⟨e0, h0, h1⟩, h2, h3⟩ := hA
      exact .member h0 h1 h2 h3 hp hd ha0 hn hm he ho
    · cases hn

theorem reachedEnv_asked {n : Name} (h : AnyNeeds (reachedEnv env l) l n ∧ ¬ DefinedGlobally (reachedEnv env l) l n ∧ NotInLibs (reachedEnv env l) l n) : Asked env l n := by
  obtain ⟨⟨p, d, j, s, ⟨e, hi, hj, hn, h3⟩, h0, hb⟩, h2, h4⟩ := h
  exact ⟨⟨e, reachedEnv_input hi, s, List.mem_of_getElem? hj, hn, h3, h0, hb⟩, h2, h4⟩

theorem reachedEnv_names (h : NamesReached env l) : NamesSmall (reachedEnv env l) l := by
  intro ns hd hns
  refine h ns hd fun n hn => (hns n hn).imp id ?_
  rintro ⟨p, d, e, s, hi, hs, hn⟩
  exact ⟨e, s, reachedEnv_input hi, hs, hn⟩

theorem reachedEnv_same (h : SameAnswers env env' l (Asked env l)) : SameAnswers (reachedEnv env l) env' l fun n =>
    AnyNeeds (reachedEnv env l) l n ∧ ¬ DefinedGlobally (reachedEnv env l) l n ∧ NotInLibs (reachedEnv env l) l n := by
  refine ⟨h.parser, h.files, fun p hp => ?_⟩
  have hb : ((reachedEnv env l).read p).bind (reachedEnv env l).parseAr = ((env.read p).bind env.parseAr).map (·.only (Asked env l)) := by
    simp only [reachedEnv]
    cases env.read p <;> rfl
  rw [hb]
  rcases h.archives p hp with ⟨h1, h2⟩ | ⟨ar, ar', h1, h2, hs⟩
  · exact .inl ⟨by rw [h1]; rfl, h2⟩
  · refine .inr ⟨_, ar', by rw [h1]; rfl, h2, fun n hn => ?_⟩
    have hA := reachedEnv_asked hn
    haveI := Classical.propDecidable (Asked env l n)
    unfold SameAnswer
    rw [memberOfSymbol_only, if_pos hA]
    exact hs n hA

theorem SameAnswers.refl (env : Env) (l : Linker) (A : Name → Prop) : SameAnswers env env l A := by
  refine ⟨fun _ => rfl, fun _ _ => rfl, fun p _ => ?_⟩
  cases h : (env.read p).bind env.parseAr with
  | none => exact .inl ⟨rfl, rfl⟩
  | some ar => exact .inr ⟨ar, ar, rfl, rfl, fun _ _ => ⟨rfl, fun _ _ => rfl⟩⟩

/-- a link only sees the files it can reach -/
theorem link_reached {sched : LinkSched} (hv : sched.Valid) (hn : NamesReached env l) (fuel : Nat) :
    link env l sched fuel = link (reachedEnv env l) l sched fuel :=
  link_same hv (reachedEnv_same (SameAnswers.refl env l _)) (reachedEnv_names hn) fuel

end Linker
end Dld
