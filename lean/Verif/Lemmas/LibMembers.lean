import Verif.Lemmas.LibOnce
import Verif.Lemmas.Sound2
/-! # Entries of libraries are taken once, also when members of archives are linked -/
namespace Dld
open Writer Spec StringTable
namespace Linker
variable {env : Env} {l : Linker} {N : List Call → Name → Prop} {members : List Loaded} {log : List Call} {w w' : Writer}

/-- the calls are made for members of archives -/
def MemberCalls (new : List Call) : Prop := ∀ c ∈ new, ∃ p m s, c.source = .member p m s

theorem linkMember_only (h : State env l N members log w) {p : Path} {data : Bytes} {ar : ArFile} {n : Name} {m : Bytes}
    {q : List Call} (hp : p ∈ l.archives) (hd : env.read p = some data) (ha : env.parseAr data = some ar)
    (hn : ar.memberOfSymbol n = some m) (hq : q <+: log) (hN : N q n) (hl : NotInLibs env l n)
    (hr : linkMember env p ar w m = .ok w') :
    ∃ new x, State env l N (members ++ [x]) (log ++ new) w' ∧ MemberCalls new := by
  simp only [linkMember, bind_ok, unwrap_ok] at hr
  obtain ⟨d, hg, obj, ho, o, rfl, ⟨o1, w1⟩, h1, ⟨o2, w2⟩, h2, h3⟩ := hr
  obtain ⟨e, he, ho⟩ := toElfObject_ok ho
  have hobj : e.isObjectFile = true := by
    cases hb : e.isObjectFile with
    | true => rfl
    | false => rw [hb] at ho; cases ho
  rw [if_pos hobj] at ho
  cases ho
  let x : Loaded := ⟨.member p m log.length, p, d, e⟩
  have hfresh : ∀ c ∈ log, c.source ≠ x.source := by
    intro c hc e
    have := h.start c hc _ _ _ e
    omega
  have hxm : x ∈ objectsOf env l ++ (members ++ [x]) := by simp
  have hI := h.inv.load (loaded' := objectsOf env l ++ (members ++ [x])) (by
    intro y hy; rw [← List.append_assoc]; exact List.mem_append_left _ hy)
  obtain ⟨new, a1, a2, a3, a4, a5⟩ := processSections_calls hxm hI (knows_new hfresh) hfresh h1
  obtain ⟨new', b1, b2, b3, b4⟩ := loadSymbols_calls hxm a1 a2 (by
    intro i
    rw [sectionCalls_append, List.mem_append, a4, mem_sectionKeys]
    exact ⟨fun h => h.resolve_left (not_mem_sectionCalls hfresh _), .inr⟩)
    (by simp only [loadSymbols, bind_ok]; exact ⟨_, h2, h3⟩)
  rw [List.append_assoc] at b1
  have hsrc : ∀ c ∈ new ++ new', c.source = x.source := by
    intro c hc
    rcases List.mem_append.1 hc with hc | hc
    · exact (a5 c hc).1
    · exact (b4 c hc).1
  refine ⟨new ++ new', x, h.loaded ?_ b1 ?_ ?_ hsrc ⟨p, m, rfl⟩, fun c hc => ⟨p, m, _, hsrc c hc⟩⟩
  · exact .mk hp hd ha hn hg he hobj (by simp) (by rw [List.take_left]; exact hq) hN hl
  · rw [sectionCalls_append, a4, b2, List.append_nil]
  · rw [otherCalls_append, a3, b3, List.nil_append]

theorem MemberCalls.append {a b : List Call} (ha : MemberCalls a) (hb : MemberCalls b) : MemberCalls (a ++ b) :=
  fun c hc => (List.mem_append.1 hc).elim (ha c) (hb c)

theorem linkMembers_only (h : State env l N members log w) {p : Path} {data : Bytes} {ar : ArFile}
    {q : List Call} (hp : p ∈ l.archives) (hd : env.read p = some data) (ha : env.parseAr data = some ar) (hq : q <+: log)
    (ms : List Bytes) (hms : ∀ m ∈ ms, ∃ n, ar.memberOfSymbol n = some m ∧ N q n ∧ NotInLibs env l n)
    (hr : foldM' (linkMember env p ar) w ms = .ok w') :
    ∃ new xs, State env l N (members ++ xs) (log ++ new) w' ∧ MemberCalls new := by
  induction ms generalizing members log w with
  | nil =>
    simp only [foldM'] at hr
    cases hr
    exact ⟨[], [], by simpa using h, fun c hc => nomatch hc⟩
  | cons m ms ih =>
    rw [foldM'_cons, bind_ok] at hr
    obtain ⟨w1, h1, h2⟩ := hr
    obtain ⟨n, hn1, hn2, hn3⟩ := hms m (by simp)
    obtain ⟨new, x, a1, a2⟩ := linkMember_only h hp hd ha hn1 hq hn2 hn3 h1
    obtain ⟨new', xs, b1, b2⟩ := ih a1 (hq.trans (List.prefix_append _ _)) (fun m hm => hms m (by simp [hm])) h2
    refine ⟨new ++ new', x :: xs, ?_, a2.append b2⟩
    rw [List.append_assoc, List.append_assoc] at b1
    exact b1

theorem processArchives_only {q : List Call} {w0 : Writer} {und0 : List SymbolRef} (hR : Round l N q w0 und0)
    (h : State env l N members log w) (hq : q <+: log) {orderU : Nat → List SymbolRef → List SymbolRef}
    {orderM : Nat → List Bytes → List Bytes} (hu : ∀ i l, (orderU i l).Perm l) (ho : ∀ i l, (orderM i l).Perm l)
    (ps : List Path) (k : Nat) (hps : ∀ p ∈ ps, p ∈ l.archives)
    {und und' : List SymbolRef} (hund : ∀ r ∈ und, r ∈ und0 ∧ ∀ n, NameAt w0 r n → NotInLibs env l n)
    (hr : foldM' (searchArchive env orderU orderM) (w, und) (ps.zipIdx k) = .ok (w', und')) :
    ∃ new xs, State env l N (members ++ xs) (log ++ new) w' ∧ MemberCalls new := by
  induction ps generalizing k members log w und with
  | nil =>
    simp only [List.zipIdx_nil, foldM'] at hr
    cases hr
    exact ⟨[], [], by simpa using h, fun c hc => nomatch hc⟩
  | cons p ps ih =>
    rw [List.zipIdx_cons, foldM'_cons, bind_ok] at hr
    obtain ⟨⟨w1, u1⟩, h1, h2⟩ := hr
    simp only [searchArchive, bind_ok, orErr_ok] at h1
    obtain ⟨data, hd, ar, ha, ⟨found, ms⟩, hf, w2, hw2, h1⟩ := h1
    cases h1
    have hmem : ∀ r, r ∈ orderU k und ↔ r ∈ und := fun r => (hu k und).mem_iff
    obtain ⟨a1, a2⟩ := searchArEntries_ok hR h hq (orderU k und) (fun r hr => (hund r ((hmem r).1 hr)).1) hf
    obtain ⟨new, xs, c1, c2⟩ := linkMembers_only h (hps p (by simp)) hd ha hq (orderM k ms) (by
      intro m hm
      rcases (a2 m).1 ((ho k ms).mem_iff.1 hm) with hc | ⟨r, hr, n, hn, hm'⟩
      · cases hc
      · obtain ⟨g1, g2⟩ := hund r ((hmem r).1 hr)
        exact ⟨n, hm', hR.need r g1 n hn, g2 n hn⟩) hw2
    obtain ⟨new', xs', b1, b2⟩ := ih c1 (hq.trans (List.prefix_append _ _)) (k + 1) (fun p hp => hps p (by simp [hp]))
      (fun r hr => hund r (List.mem_filter.1 hr).1) h2
    refine ⟨new ++ new', xs ++ xs', ?_, c2.append b2⟩
    rw [← List.append_assoc, ← List.append_assoc]; exact b1

/-- calls for members are no calls for libraries -/
theorem State.memberCalls_lib {new : List Call} (h : State env l N members (log ++ new) w) (hm : MemberCalls new) : libCalls new = [] := by
  unfold libCalls
  rw [List.filter_eq_nil_iff.2, List.map_nil]
  intro c hc hl
  obtain ⟨p, m, s, hs⟩ := hm c hc
  obtain ⟨a, b, e⟩ := List.append_of_mem (List.mem_append_right log hc)
  cases h.inv.just a c b e with
  | «section» => cases hl
  | symbol => cases hl
  | reloc => cases hl
  | dynsym => cases hs
  | needed => cases hs

theorem resolveLoop_entries_any {sched : LinkSched} (hv : sched.Valid) (hn : NamesSmall env l)
    (hread : ∀ p ∈ l.objects, ∃ d e, env.read p = some d ∧ env.parseElf d = some e)
    (h : State env l (Unmet env l sched.symIter) members log w) (ho : (libCalls log).Nodup) {fuel round : Nat}
    (hr : resolveLoop env l sched fuel round (w.undefinedSymbols sched.symIter) w = some (.ok w')) :
    ∃ new xs, State env l (Unmet env l sched.symIter) (members ++ xs) (log ++ new) w' ∧ (libCalls (log ++ new)).Nodup := by
  induction fuel generalizing members log w round with
  | zero => cases hr
  | succ fuel ih =>
    rw [resolveLoop] at hr
    split at hr
    · cases hr
    · next w1 cnt h1 =>
      simp only [resolveRound, bind_ok] at h1
      obtain ⟨⟨w2, u2⟩, h2, ⟨w3, u3⟩, h3, h1⟩ := h1
      cases h1
      have hR := h.round hv.toSched.symIter
      simp only [findInLibs] at h2
      have hfit := (h.calls hread).symstr_small h.inv.hist hn
      obtain ⟨new, a1, a2, a3⟩ := findInLibs_entries hR h (List.prefix_refl _) (fun i l => hv.undefLib round i l)
        (l.options.sharedLibs.map (·.1)) 0 (fun p hp => hp) (fun r hr => hr) (h.inv.hist.nodup_undefined hv.toSched.symIter) h2
      obtain ⟨_, _, _, c3, c4, _⟩ := findInLibs_calls hR h (List.prefix_refl _) (fun i l => hv.undefLib round i l)
        (l.options.sharedLibs.map (·.1)) 0 (fun p hp => hp) (fun r hr => hr) h2
      have hnew : (libCalls (log ++ new)).Nodup := by
        rw [libCalls_append, List.nodup_append, libCalls_entries a2]
        refine ⟨ho, a3, ?_⟩
        intro x hx y hy e
        obtain ⟨c, hc, rfl⟩ := List.mem_map.1 hx
        obtain ⟨c', hc', rfl⟩ := List.mem_map.1 hy
        rw [List.mem_filter] at hc
        obtain ⟨p, data, elf, n, g1, g2, g3, g4⟩ := h.taken hv hfit hc.1 hc.2
        obtain ⟨p', d', e', n', r', k1, k2, k3, k4, k5⟩ := a2 c' hc'
        have hpp : p' = p := by
          have e1 : c.source = c'.source := congrArg Prod.fst e
          rw [g3.1, k3.1] at e1
          cases e1
          rfl
        subst hpp
        cases g1.symm.trans k1
        cases g2.symm.trans k2
        have := g3.name k3 e
        subst this
        exact ((hR.need r' k4 n k5).spec hv.toSched.symIter (List.prefix_refl _) h.inv.hist hfit).1.absent g4
      unfold processArchives at h3
      obtain ⟨new', xs, b1, b2⟩ := processArchives_only hR a1 (List.prefix_append _ _) (fun i l => hv.undefAr round i l) (fun i l => hv.members round i l)
        (sched.archives l.archives) 0 (fun p hp => (hv.archives _).mem_iff.1 hp) (fun r hr => ⟨c3.subset hr, fun n hnm p hp data e hd he s hs hc =>
          (c4 r (c3.subset hr)).1 hr n hnm ⟨p, hp, data, e, hd, he, s, hs, hc⟩⟩) h3
      have hnew' : (libCalls ((log ++ new) ++ new')).Nodup := by
        rw [libCalls_append, b1.memberCalls_lib b2, List.append_nil]; exact hnew
      split at hr
      · cases hr
        exact ⟨new ++ new', xs, by rw [← List.append_assoc]; exact b1, by rw [← List.append_assoc]; exact hnew'⟩
      · obtain ⟨new'', ys, d1, d2⟩ := ih b1 hnew' hr
        exact ⟨new ++ new' ++ new'', xs ++ ys, by simpa only [List.append_assoc] using d1, by simpa only [List.append_assoc] using d2⟩

/-- the calls of a link, with no entry of a library taken twice -/
theorem gathered_entries_any {sched : LinkSched} (hv : sched.Valid) (hn : NamesSmall env l) {fuel : Nat} (h : gathered env l sched fuel = some (.ok w)) :
    ∃ loaded log, Calls env l (NeededIn env l) loaded log ∧ Hist l.options (opsOf log) w ∧ (libCalls log).Nodup := by
  unfold gathered at h
  split at h
  · cases h
  · next w0 h0 =>
    split at h
    · cases h
    · next w1 h1 =>
      obtain ⟨log, a1, a2⟩ := loadAll_calls (N := fun _ _ => False) h0 h1
      have hnone := a1.no_lib
      have a1 := a1.mono (N' := Unmet env l sched.symIter) (fun _ _ h => h.elim)
      obtain ⟨new, xs, b1, b2⟩ := resolveLoop_entries_any hv hn a2 a1 (by rw [hnone]; exact List.nodup_nil) h
      have hC := b1.calls a2
      exact ⟨_, _, calls_spec hv hC b1.inv.hist (hC.symstr_small b1.inv.hist hn), b1.inv.hist, b2⟩

end Linker
end Dld
