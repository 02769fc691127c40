import Verif.Spec.Unused
import Verif.Lemmas.Sound2
import Verif.Lemmas.Order5
/-! # Searching a library or an archive that nothing is taken from -/
namespace Dld
open Writer Spec StringTable
namespace Linker
variable {env : Env} {l : Linker} {log : List Call} {w w' : Writer} {members : List Loaded}

theorem foldM'_congr {σ α : Type} {f g : σ → α → M σ} : ∀ {l : List α} {s : σ}, (∀ s, ∀ a ∈ l, f s a = g s a) → foldM' f s l = foldM' g s l := by
  intro l
  induction l with
  | nil => intros; rfl
  | cons a l ih =>
    intro s h
    rw [foldM'_cons, foldM'_cons, h s a (by simp)]
    cases g s a with
    | error e => rfl
    | ok s1 => exact ih fun s b hb => h s b (by simp [hb])

/-- shifted numbers -/
theorem foldM'_shift {σ α : Type} {f g : σ → α × Nat → M σ} : ∀ {l : List α} {k : Nat} {s : σ}, (∀ s a i, k ≤ i → f s (a, i + 1) = g s (a, i)) →
    foldM' f s (l.zipIdx (k + 1)) = foldM' g s (l.zipIdx k) := by
  intro l
  induction l with
  | nil => intros; rfl
  | cons a l ih =>
    intro k s h
    rw [List.zipIdx_cons, List.zipIdx_cons, foldM'_cons, foldM'_cons, h s a k (Nat.le_refl _)]
    cases g s (a, k) with
    | error e => rfl
    | ok s1 => exact ih fun s b i hi => h s b i (by omega)

/-- the name of a symbol that was unresolved at the start of the round -/
theorem Round.symbolName {N : List Call → Name → Prop} {q : List Call} {w0 : Writer} {und : List SymbolRef} (hR : Round l N q w0 und) (h : State env l N members log w)
    (hq : q <+: log) (hl : w0.symstr.totalLen < 2 ^ 32) {r : SymbolRef} (hr : r ∈ und) : ∃ n, w.symbolName r = .ok (some n) ∧ N q n ∧ NameAt w0 r n := by
  obtain ⟨k, rfl, hg⟩ := hR.get r hr
  obtain ⟨n, hn⟩ := Option.isSome_iff_exists.1 (hR.hist.name_isSome hl hg)
  obtain ⟨t, rfl⟩ := hq
  have hH := h.inv.hist
  rw [opsOf_append] at hH
  have := hR.hist.name_fwd hH hn
  exact ⟨n, by simp [Writer.symbolName, this, unwrap]; rfl, hR.need _ hr _ ⟨k, rfl, hn⟩, k, rfl, hn⟩

/-- nothing is found in a library that has none of the names -/
theorem searchLib_unused {N : List Call → Name → Prop} {q : List Call} {w0 : Writer} {und0 und : List SymbolRef} (hR : Round l N q w0 und0) (h : State env l N members log w)
    (hq : q <+: log) (hl : w0.symstr.totalLen < 2 ^ 32) (hund : ∀ r ∈ und, r ∈ und0) {order : Nat → List SymbolRef → List SymbolRef}
    (hord : ∀ i l, (order i l).Perm l) {p : Path} {data : Bytes} {e : ElfFile} (hd : env.read p = some data) (he : env.parseElf data = some e)
    (hno : ∀ s ∈ e.dynsyms, ∃ n, e.dynName s.st_name = some n ∧ ∀ r ∈ und, NameAt w0 r n → ¬ N q n) (i : Nat) : searchLib env order (w, und) (p, i) = .ok (w, und) := by
  have hfold : foldM' (searchLibEntry e p) (w, ([] : List SymbolRef)) (order i und) = .ok (w, []) := by
    refine foldM'_same fun r hr => ?_
    have hr := (hord i und).mem_iff.1 hr
    obtain ⟨n, hn, hN, hat⟩ := hR.symbolName h hq hl (hund r hr)
    have hm : foldM' (matchDynsym e p n) (w, false) e.dynsyms = .ok (w, false) := by
      refine foldM'_same fun s hs => ?_
      obtain ⟨m, hm, hmN⟩ := hno s hs
      have hne : n ≠ m := by rintro rfl; exact hmN r hr hat hN
      simp only [matchDynsym, hm, orErr, ok_bind, if_neg hne]
    simp only [searchLibEntry, hn, ok_bind, hm]
    rfl
  simp only [searchLib, hd, he, orErr, unwrap, ok_bind, hfold]
  simp

/-- nothing is found in an archive that has none of the names -/
theorem searchArchive_unused {N : List Call → Name → Prop} {q : List Call} {w0 : Writer} {und0 und : List SymbolRef} (hR : Round l N q w0 und0) (h : State env l N members log w)
    (hq : q <+: log) (hl : w0.symstr.totalLen < 2 ^ 32) (hund : ∀ r ∈ und, r ∈ und0) {orderU : Nat → List SymbolRef → List SymbolRef}
    {orderM : Nat → List Bytes → List Bytes}
    (hord : ∀ i l, (orderU i l).Perm l) (hordM : ∀ i l, (orderM i l).Perm l) {p : Path} {data : Bytes} {ar : ArFile} (hd : env.read p = some data) (he : env.parseAr data = some ar)
    (hno : ∀ x ∈ ar.index, ∀ r ∈ und, NameAt w0 r x.1 → ¬ N q x.1) (i : Nat) : searchArchive env orderU orderM (w, und) (p, i) = .ok (w, und) := by
  have hfold : foldM' (searchArEntry ar w) (([] : List SymbolRef), ([] : List Bytes)) (orderU i und) = .ok ([], []) := by
    refine foldM'_same fun r hr => ?_
    have hr := (hord i und).mem_iff.1 hr
    obtain ⟨n, hn, hN, hat⟩ := hR.symbolName h hq hl (hund r hr)
    have hm : ar.memberOfSymbol n = none := by
      cases hx : ar.memberOfSymbol n with
      | none => rfl
      | some m => exact absurd hN (hno _ (AMap.mem_of_get? hx) r hr hat)
    simp only [searchArEntry, hn, ok_bind, hm]
  have hnil : orderM i [] = [] := (hordM i []).eq_nil
  simp only [searchArchive, hd, he, orErr, ok_bind, hfold, hnil, foldM'_nil]
  simp

/-- a name that is unresolved in the middle of a link is left undefined by an input -/
theorem State.leftOpen {order : List Nat → List Nat} (ho : ∀ l, (order l).Perm l) (h : State env l (Unmet env l order) members log w)
    (hread : ∀ p ∈ l.objects, ∃ d e, env.read p = some d ∧ env.parseElf d = some e) (hn : NamesSmall env l) {n : Name} (hu : Unmet env l order log n) :
    LeftOpen env l n := by
  have hc := h.calls hread
  obtain ⟨⟨s, sec, hm, h0, hb⟩, _⟩ := (hu.spec ho (List.prefix_refl _) h.inv.hist (hc.symstr_small h.inv.hist hn)).1
  obtain ⟨x, hx, hs, hnm, _⟩ := hc.mention_iff.2 ⟨sec, hm⟩
  exact ⟨x.elf, s, hc.input hx, hs, hnm, h0, hb⟩

/-- The orders agree, except that the libraries from number `k` on have numbers that are greater by one. -/
structure LibShift (k : Nat) (s s' : LinkSched) : Prop where
  toSched : s'.toSched = s.toSched
  low : ∀ r i, i < k → s'.undefLib r i = s.undefLib r i
  high : ∀ r i, k ≤ i → s'.undefLib r (i + 1) = s.undefLib r i
  undefAr : s'.undefAr = s.undefAr
  members : s'.members = s.members
  archives : s'.archives = s.archives

theorem findInLibs_unused {sched sched' : LinkSched} (hv : sched.Valid) (hv' : sched'.Valid) {before after : List (Path × Bool)} {p : Path} {b : Bool}
    (hl : l.options.sharedLibs = before ++ after) (hs : LibShift before.length sched sched') (hun : SpareLib env l (before.map (·.1)) p) (hn : NamesSmall env l)
    (hread : ∀ p ∈ l.objects, ∃ d e, env.read p = some d ∧ env.parseElf d = some e)
    (h : State env l (Unmet env l sched.symIter) members log w) (round : Nat) :
    findInLibs env (l.withLib before (p, b) after) (sched'.undefLib round) (w.undefinedSymbols sched.symIter) w =
      findInLibs env l (sched.undefLib round) (w.undefinedSymbols sched.symIter) w := by
  have hR := h.round hv.toSched.symIter
  have hsmall := (h.calls hread).symstr_small h.inv.hist hn
  obtain ⟨data, e, hd, he, hno⟩ := hun.parsed
  unfold findInLibs
  rw [hl]
  show foldM' _ _ ((before ++ (p, b) :: after).map (·.1)).zipIdx = _
  rw [List.map_append, List.map_append, List.map_cons, List.zipIdx_append, List.zipIdx_append, foldM'_append, foldM'_append]
  have e1 : foldM' (searchLib env (sched'.undefLib round)) (w, w.undefinedSymbols sched.symIter) (before.map (·.1)).zipIdx =
      foldM' (searchLib env (sched.undefLib round)) (w, w.undefinedSymbols sched.symIter) (before.map (·.1)).zipIdx := by
    refine foldM'_congr fun s a ha => ?_
    have : a.2 < before.length := by
      have := List.mem_zipIdx (x := a.1) (i := a.2) ha
      simpa using this.2.1
    obtain ⟨a, i⟩ := a
    simp only [searchLib, hs.low round i this]
  rw [e1]
  cases hr : foldM' (searchLib env (sched.undefLib round)) (w, w.undefinedSymbols sched.symIter) (before.map (·.1)).zipIdx with
  | error e => rfl
  | ok st =>
    obtain ⟨w1, u1⟩ := st
    obtain ⟨new, a1, a2, a3, a4, _⟩ := findInLibs_calls hR h (List.prefix_refl _) (fun i l => hv.undefLib round i l) (before.map (·.1)) 0
      (by intro p hp; rw [hl, List.map_append]; exact List.mem_append_left _ hp) (fun r hr => hr) hr
    have hno' : ∀ s ∈ e.dynsyms, ∃ n, e.dynName s.st_name = some n ∧ ∀ r ∈ u1, NameAt w r n → ¬ Unmet env l sched.symIter log n := fun s hs => by
      obtain ⟨n, h1, h2⟩ := hno s hs
      refine ⟨n, h1, fun r hr hat hu => ?_⟩
      rcases h2 with h2 | ⟨p', hp', d', e', hd', he', s', hs', hn'⟩
      · exact h2 (h.leftOpen hv.toSched.symIter hread hn hu)
      · exact (a4 r (a3.subset hr)).1 hr n hat ⟨p', hp', d', e', hd', he', s', hs', hn'⟩
    simp only [ok_bind]
    rw [List.zipIdx_cons, foldM'_cons, searchLib_unused hR a1 (List.prefix_append _ _) hsmall (fun r hr => a3.subset hr) (fun i l => hv'.undefLib round i l) hd he hno', ok_bind]
    refine foldM'_shift fun s a i hi => ?_
    have hi : before.length ≤ i := by simpa using hi
    simp only [searchLib, hs.high round i hi]

theorem resolveLoop_unusedLib {sched sched' : LinkSched} (hv : sched.Valid) (hv' : sched'.Valid) {before after : List (Path × Bool)} {p : Path} {b : Bool}
    (hl : l.options.sharedLibs = before ++ after) (hs : LibShift before.length sched sched') (hun : SpareLib env l (before.map (·.1)) p) (hn : NamesSmall env l)
    (hread : ∀ p ∈ l.objects, ∃ d e, env.read p = some d ∧ env.parseElf d = some e) (fuel : Nat) :
    ∀ (members : List Loaded) (log : List Call) (w : Writer) (round : Nat), State env l (Unmet env l sched.symIter) members log w →
    resolveLoop env (l.withLib before (p, b) after) sched' fuel round (w.undefinedSymbols sched.symIter) w =
      resolveLoop env l sched fuel round (w.undefinedSymbols sched.symIter) w := by
  induction fuel with
  | zero => intros; rfl
  | succ fuel ih =>
    intro members log w round h
    have hround : resolveRound env (l.withLib before (p, b) after) sched' round (w.undefinedSymbols sched.symIter) w =
        resolveRound env l sched round (w.undefinedSymbols sched.symIter) w := by
      simp only [resolveRound, findInLibs_unused hv hv' hl hs hun hn hread h, processArchives, hs.undefAr, hs.members, hs.archives]
      rfl
    rw [resolveLoop, resolveLoop, hround, hs.toSched]
    cases hr : resolveRound env l sched round (w.undefinedSymbols sched.symIter) w with
    | error e => rfl
    | ok st =>
      obtain ⟨w1, cnt⟩ := st
      obtain ⟨new, xs, a1, _⟩ := resolveRound_calls hv h hr
      simp only []
      split
      · rfl
      · exact ih _ _ _ _ a1

theorem link_unusedLib {sched sched' : LinkSched} (hv : sched.Valid) (hv' : sched'.Valid) {before after : List (Path × Bool)} {p : Path} {b : Bool}
    (hl : l.options.sharedLibs = before ++ after) (hs : LibShift before.length sched sched') (hun : SpareLib env l (before.map (·.1)) p) (hn : NamesSmall env l) (fuel : Nat) :
    link env (l.withLib before (p, b) after) sched' fuel = link env l sched fuel := by
  have key : gathered env (l.withLib before (p, b) after) sched' fuel = gathered env l sched fuel := by
    have e0 : Writer.new (l.withLib before (p, b) after).options = Writer.new l.options := rfl
    have e1 : ∀ w, loadAll env (l.withLib before (p, b) after) w = loadAll env l w := fun _ => rfl
    unfold gathered
    rw [e0]
    cases h0 : Writer.new l.options with
    | error e => rfl
    | ok w =>
      simp only [e1]
      cases h1 : loadAll env l w with
      | error e => rfl
      | ok w1 =>
        obtain ⟨log, a1, a2⟩ := loadAll_calls (N := Unmet env l sched.symIter) h0 h1
        simp only [hs.toSched]
        exact resolveLoop_unusedLib hv hv' hl hs hun hn a2 fuel _ _ _ _ a1
  have hfin : ∀ w, finish (l.withLib before (p, b) after) sched' w = finish l sched w := fun w => by
    simp only [finish, hs.toSched]
    rfl
  rw [link_eq, link_eq, key]
  simp only [hfin]

/-! ## Archives -/

/-- The orders agree, except that one more archive stands at number `k`. -/
structure ArShift (k : Nat) (s s' : LinkSched) : Prop where
  toSched : s'.toSched = s.toSched
  undefLib : s'.undefLib = s.undefLib
  low : ∀ r i, i < k → s'.undefAr r i = s.undefAr r i ∧ s'.members r i = s.members r i
  high : ∀ r i, k ≤ i → s'.undefAr r (i + 1) = s.undefAr r i ∧ s'.members r (i + 1) = s.members r i

theorem resolveRound_unusedArchive {sched sched' : LinkSched} (hv : sched.Valid) (hv' : sched'.Valid) {before after : List Path} {p : Path}
    (ha : sched.archives l.archives = before ++ after) (ha' : sched'.archives (p :: l.archives) = before ++ p :: after) (hs : ArShift before.length sched sched')
    (hun : SpareArchive env l p) (hn : NamesSmall env l)
    (hread : ∀ p ∈ l.objects, ∃ d e, env.read p = some d ∧ env.parseElf d = some e)
    (h : State env l (Unmet env l sched.symIter) members log w) (round : Nat) :
    resolveRound env (l.withArchive p) sched' round (w.undefinedSymbols sched.symIter) w =
      resolveRound env l sched round (w.undefinedSymbols sched.symIter) w := by
  have hR := h.round hv.toSched.symIter
  have hsmall := (h.calls hread).symstr_small h.inv.hist hn
  obtain ⟨data, ar, hd, he, hno⟩ := hun.parsed
  have e0 : findInLibs env (l.withArchive p) (sched'.undefLib round) (w.undefinedSymbols sched.symIter) w =
      findInLibs env l (sched.undefLib round) (w.undefinedSymbols sched.symIter) w := by rw [hs.undefLib]; rfl
  simp only [resolveRound, e0]
  cases h1 : findInLibs env l (sched.undefLib round) (w.undefinedSymbols sched.symIter) w with
  | error e => rfl
  | ok st =>
    obtain ⟨w1, u1⟩ := st
    simp only [findInLibs] at h1
    obtain ⟨new, a1, a2, a3, a4, _⟩ := findInLibs_calls hR h (List.prefix_refl _) (fun i l => hv.undefLib round i l)
      (l.options.sharedLibs.map (·.1)) 0 (fun p hp => hp) (fun r hr => hr) h1
    have hnot : ∀ r ∈ u1, ∀ n, NameAt w r n → NotInLibs env l n := by
      intro r hr n hn p hp data e hd he s hs hc
      exact (a4 r (a3.subset hr)).1 hr n hn ⟨p, hp, data, e, hd, he, s, hs, hc⟩
    have hno' : ∀ q ∈ ar.index, ∀ r ∈ u1, NameAt w r q.1 → ¬ Unmet env l sched.symIter log q.1 := fun q hq r hr hat hu => by
      rcases hno q hq with h2 | ⟨p', s', hp', d', e', hd', he', hs', hn'⟩
      · exact h2 (h.leftOpen hv.toSched.symIter hread hn hu)
      · exact hnot r hr _ hat p' hp' d' e' hd' he' s' hs' hn'
    have harch : ∀ p, p ∈ sched.archives l.archives ↔ p ∈ l.archives := fun p => (hv.archives _).mem_iff
    simp only [ok_bind, processArchives]
    have key : foldM' (searchArchive env (sched'.undefAr round) (sched'.members round)) (w1, u1) (sched'.archives (l.withArchive p).archives).zipIdx =
        foldM' (searchArchive env (sched.undefAr round) (sched.members round)) (w1, u1) (sched.archives l.archives).zipIdx := by
      rw [show (l.withArchive p).archives = p :: l.archives from rfl, ha', ha, List.zipIdx_append, List.zipIdx_append, foldM'_append, foldM'_append]
      have e1 : foldM' (searchArchive env (sched'.undefAr round) (sched'.members round)) (w1, u1) before.zipIdx =
          foldM' (searchArchive env (sched.undefAr round) (sched.members round)) (w1, u1) before.zipIdx := by
        refine foldM'_congr fun s a ha => ?_
        have : a.2 < before.length := by
          have := List.mem_zipIdx (x := a.1) (i := a.2) ha
          simpa using this.2.1
        obtain ⟨a, i⟩ := a
        simp only [searchArchive, (hs.low round i this).1, (hs.low round i this).2]
      rw [e1]
      cases hr : foldM' (searchArchive env (sched.undefAr round) (sched.members round)) (w1, u1) before.zipIdx with
      | error e => rfl
      | ok st =>
        obtain ⟨w2, u2⟩ := st
        obtain ⟨new', xs, b1, b2, _⟩ := processArchives_calls hR a1 (List.prefix_append _ _) (fun i l => hv.undefAr round i l)
          (fun i l => hv.members round i l) before 0 (fun p hp => (harch p).1 (by rw [ha]; exact List.mem_append_left _ hp))
          (fun r hr => ⟨a3.subset hr, hnot r hr⟩) hr
        simp only [ok_bind]
        rw [List.zipIdx_cons, foldM'_cons, searchArchive_unused hR b1 (by rw [List.append_assoc]; exact List.prefix_append _ _) hsmall
          (fun r hr => a3.subset (b2.subset hr)) (fun i l => hv'.undefAr round i l) (fun i l => hv'.members round i l) hd he (fun q hq r hr => hno' q hq r (b2.subset hr)), ok_bind]
        refine foldM'_shift fun s a i hi => ?_
        have hi : before.length ≤ i := by simpa using hi
        simp only [searchArchive, (hs.high round i hi).1, (hs.high round i hi).2]
    rw [key]

theorem resolveLoop_unusedArchive {sched sched' : LinkSched} (hv : sched.Valid) (hv' : sched'.Valid) {before after : List Path} {p : Path}
    (ha : sched.archives l.archives = before ++ after) (ha' : sched'.archives (p :: l.archives) = before ++ p :: after) (hs : ArShift before.length sched sched')
    (hun : SpareArchive env l p) (hn : NamesSmall env l)
    (hread : ∀ p ∈ l.objects, ∃ d e, env.read p = some d ∧ env.parseElf d = some e) (fuel : Nat) :
    ∀ (members : List Loaded) (log : List Call) (w : Writer) (round : Nat), State env l (Unmet env l sched.symIter) members log w →
    resolveLoop env (l.withArchive p) sched' fuel round (w.undefinedSymbols sched.symIter) w =
      resolveLoop env l sched fuel round (w.undefinedSymbols sched.symIter) w := by
  induction fuel with
  | zero => intros; rfl
  | succ fuel ih =>
    intro members log w round h
    rw [resolveLoop, resolveLoop, resolveRound_unusedArchive hv hv' ha ha' hs hun hn hread h, hs.toSched]
    cases hr : resolveRound env l sched round (w.undefinedSymbols sched.symIter) w with
    | error e => rfl
    | ok st =>
      obtain ⟨w1, cnt⟩ := st
      obtain ⟨new, xs, a1, _⟩ := resolveRound_calls hv h hr
      simp only []
      split
      · rfl
      · exact ih _ _ _ _ a1

theorem link_unusedArchive {sched sched' : LinkSched} (hv : sched.Valid) (hv' : sched'.Valid) {before after : List Path} {p : Path}
    (ha : sched.archives l.archives = before ++ after) (ha' : sched'.archives (p :: l.archives) = before ++ p :: after) (hs : ArShift before.length sched sched')
    (hun : SpareArchive env l p) (hn : NamesSmall env l) (fuel : Nat) : link env (l.withArchive p) sched' fuel = link env l sched fuel := by
  have key : gathered env (l.withArchive p) sched' fuel = gathered env l sched fuel := by
    have e0 : Writer.new (l.withArchive p).options = Writer.new l.options := rfl
    have e1 : ∀ w, loadAll env (l.withArchive p) w = loadAll env l w := fun _ => rfl
    unfold gathered
    rw [e0]
    cases h0 : Writer.new l.options with
    | error e => rfl
    | ok w =>
      simp only [e1]
      cases h1 : loadAll env l w with
      | error e => rfl
      | ok w1 =>
        obtain ⟨log, a1, a2⟩ := loadAll_calls (N := Unmet env l sched.symIter) h0 h1
        simp only [hs.toSched]
        exact resolveLoop_unusedArchive hv hv' ha ha' hs hun hn a2 fuel _ _ _ _ a1
  have hfin : ∀ w, finish (l.withArchive p) sched' w = finish l sched w := fun w => by
    simp only [finish, hs.toSched]
    rfl
  rw [link_eq, link_eq, key]
  simp only [hfin]

end Linker
end Dld
