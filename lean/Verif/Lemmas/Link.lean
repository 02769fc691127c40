import Verif.Lemmas.Resolve
/-! # The calls of a whole link -/
namespace Dld
open Writer Spec StringTable
namespace Linker

/-- the two lists correspond -/
inductive All2 {α β : Type} (R : α → β → Prop) : List α → List β → Prop
  | nil : All2 R [] []
  | cons {a b as bs} : R a b → All2 R as bs → All2 R (a :: as) (b :: bs)

theorem All2.append {α β : Type} {R : α → β → Prop} {as : List α} {bs : List β} {as' : List α} {bs' : List β}
    (h : All2 R as bs) (h' : All2 R as' bs') : All2 R (as ++ as') (bs ++ bs') := by
  induction h with
  | nil => exact h'
  | cons h _ ih => exact .cons h ih

theorem All2.imp {α β : Type} {R S : α → β → Prop} {as : List α} {bs : List β} (h : All2 R as bs)
    (hi : ∀ a ∈ as, ∀ b, R a b → S a b) : All2 S as bs := by
  induction h with
  | nil => exact .nil
  | cons h _ ih => exact .cons (hi _ (by simp) _ h) (ih fun a ha => hi a (by simp [ha]))

section
variable {env : Env} {l : Linker} {N : List Call → Name → Prop} {log : List Call} {w w' : Writer}

/-- the object files among the files `ps`, the first of which has number `k` -/
def objectsFrom (env : Env) (ps : List Path) (k : Nat) : List Loaded :=
  (ps.zipIdx k).filterMap fun x =>
    (env.read x.1).bind fun d => (env.parseElf d).bind fun e =>
      if e.isObjectFile then some ⟨.object x.2, x.1, d, e⟩ else none

theorem mem_objectsFrom {ps : List Path} {k : Nat} {x : Loaded} (h : x ∈ objectsFrom env ps k) :
    ∃ i, ps[i]? = some x.path ∧ x.source = .object (k + i) ∧ env.read x.path = some x.data ∧ env.parseElf x.data = some x.elf ∧
      x.elf.isObjectFile = true := by
  simp only [objectsFrom, List.mem_filterMap, Option.bind_eq_some_iff] at h
  obtain ⟨⟨p, i⟩, hm, d, hd, e, he, h⟩ := h
  split at h
  · next ho =>
    cases h
    obtain ⟨h1, h2⟩ := List.mk_mem_zipIdx_iff_le_and_getElem?_sub.1 hm
    exact ⟨i - k, h2, by simp; omega, hd, he, ho⟩
  · cases h

theorem objectsFrom_inj {ps : List Path} {k : Nat} {x y : Loaded} (hx : x ∈ objectsFrom env ps k) (hy : y ∈ objectsFrom env ps k)
    (h : x.source = y.source) : x = y := by
  obtain ⟨i, a1, a2, a3, a4, _⟩ := mem_objectsFrom hx
  obtain ⟨j, b1, b2, b3, b4, _⟩ := mem_objectsFrom hy
  rw [a2, b2] at h
  have e : i = j := by injection h with h; omega
  subst e
  rw [a1] at b1
  have e1 := Option.some.inj b1
  rw [e1, b3] at a3
  have e2 := Option.some.inj a3
  rw [← e2, b4] at a4
  have e3 := Option.some.inj a4
  cases x; cases y
  simp_all

theorem objectsFrom_nodup (ps : List Path) (k : Nat) : ((objectsFrom env ps k).map (·.source)).Nodup := by
  unfold objectsFrom
  induction ps generalizing k with
  | nil => simp
  | cons p ps ih =>
    rw [List.zipIdx_cons, List.filterMap_cons]
    split
    · exact ih (k + 1)
    · next x hx =>
      rw [List.map_cons, List.nodup_cons]
      refine ⟨?_, ih (k + 1)⟩
      have hsrc : x.source = .object k := by
        simp only [Option.bind_eq_some_iff] at hx
        obtain ⟨d, _, e, _, hx⟩ := hx
        split at hx
        · cases hx; rfl
        · cases hx
      intro hm
      obtain ⟨y, hy, e⟩ := List.mem_map.1 hm
      obtain ⟨i, _, h2, _⟩ := mem_objectsFrom (k := k + 1) hy
      rw [hsrc, h2] at e
      injection e with e
      omega

/-- the keys of files with different sources are different -/
theorem flatMap_keys_nodup {xs : List Loaded} (h : (xs.map (·.source)).Nodup) :
    (xs.flatMap Loaded.sectionKeys).Nodup ∧ (xs.flatMap Loaded.otherKeys).Nodup := by
  induction xs with
  | nil => simp
  | cons x xs ih =>
    rw [List.map_cons, List.nodup_cons] at h
    obtain ⟨h1, h2⟩ := ih h.2
    rw [List.flatMap_cons, List.flatMap_cons]
    refine ⟨List.nodup_append.2 ⟨(keys_nodup x).1, h1, ?_⟩, List.nodup_append.2 ⟨(keys_nodup x).2, h2, ?_⟩⟩
    · rintro a ha b hb rfl
      obtain ⟨y, hy, hb⟩ := List.mem_flatMap.1 hb
      exact h.1 (List.mem_map.2 ⟨y, hy, (keys_source (.inl hb)).symm.trans (keys_source (.inl ha))⟩)
    · rintro a ha b hb rfl
      obtain ⟨y, hy, hb⟩ := List.mem_flatMap.1 hb
      exact h.1 (List.mem_map.2 ⟨y, hy, (keys_source (.inr hb)).symm.trans (keys_source (.inr ha))⟩)

theorem loadObjects_calls {L : List Loaded} (ps : List Path) (k : Nat) (hL : ∀ x ∈ objectsFrom env ps k, x ∈ L)
    (h : Inv env l N L log w) {xs : List Loaded} {objs objs' : List Obj} (hk : All2 (fun x o => Knows x log o) xs objs)
    (hlog : ∀ c ∈ log, ∃ i < k, c.source = .object i ∧ c.item.isSection = true) (hxs : ∀ x ∈ xs, ∃ i < k, x.source = .object i)
    {inputs : List (Path × Bytes)} (hi : readAll env ps = .ok inputs) (hr : foldM' (loadObjects env) (objs, w) inputs = .ok (objs', w')) :
    ∃ new, Inv env l N L (log ++ new) w' ∧ All2 (fun x o => Knows x (log ++ new) o) (xs ++ objectsFrom env ps k) objs' ∧
      sectionCalls new = (objectsFrom env ps k).flatMap Loaded.sectionKeys ∧ otherCalls new = [] ∧
      (∀ c ∈ new, (∃ i, c.source = .object i) ∧ c.item.isSection = true) ∧
      (∀ p ∈ ps, ∃ d e, env.read p = some d ∧ env.parseElf d = some e) := by
  induction ps generalizing k log w xs objs inputs with
  | nil =>
    simp only [readAll] at hi
    cases hi
    simp only [foldM'] at hr
    cases hr
    exact ⟨[], by simpa using h, by simpa [objectsFrom] using hk, rfl, rfl, by simp, by simp⟩
  | cons p ps ih =>
    simp only [readAll, bind_ok, orErr_ok] at hi
    obtain ⟨d, hd, rest, hrest, hi⟩ := hi
    cases hi
    rw [foldM'_cons, bind_ok] at hr
    obtain ⟨⟨objs1, w1⟩, h1, h2⟩ := hr
    simp only [loadObjects, bind_ok] at h1
    obtain ⟨ob, hob, h1⟩ := h1
    obtain ⟨e, he, rfl⟩ := toElfObject_ok hob
    cases ho : e.isObjectFile with
    | false =>
      have hfrom : objectsFrom env (p :: ps) k = objectsFrom env ps (k + 1) := by
        simp [objectsFrom, List.zipIdx_cons, hd, he, ho]
      rw [ho] at h1
      simp only [Bool.false_eq_true, if_false] at h1
      cases h1
      rw [hfrom] at hL ⊢
      obtain ⟨new, a1, a2, a3, a4, a5, a6⟩ := ih (k + 1) hL h hk
        (fun c hc => by obtain ⟨i, hi, h⟩ := hlog c hc; exact ⟨i, by omega, h⟩)
        (fun x hx => by obtain ⟨i, hi, h⟩ := hxs x hx; exact ⟨i, by omega, h⟩) hrest h2
      refine ⟨new, a1, a2, a3, a4, a5, ?_⟩
      intro p' hp'
      rcases List.mem_cons.1 hp' with rfl | hp'
      · exact ⟨d, e, hd, he⟩
      · exact a6 p' hp'
    | true =>
      let x : Loaded := ⟨.object k, p, d, e⟩
      have hfrom : objectsFrom env (p :: ps) k = x :: objectsFrom env ps (k + 1) := by
        simp [objectsFrom, List.zipIdx_cons, hd, he, ho, x]
      rw [ho] at h1
      simp only [if_true, bind_ok] at h1
      obtain ⟨⟨o1, w2⟩, h3, h1⟩ := h1
      cases h1
      rw [hfrom] at hL ⊢
      have hfresh : ∀ c ∈ log, c.source ≠ x.source := by
        intro c hc e
        obtain ⟨i, hi, h, _⟩ := hlog c hc
        rw [h] at e
        injection e with e; omega
      obtain ⟨new, a1, a2, a3, a4, a5⟩ := processSections_calls (hL x (by simp)) h (knows_new hfresh) hfresh h3
      obtain ⟨new', b1, b2, b3, b4, b5, b6⟩ := ih (k + 1) (fun y hy => hL y (by simp [hy])) a1
        (xs := xs ++ [x]) (objs := objs ++ [o1])
        ((hk.imp fun y hy o hyo => hyo.append fun c hc hcs => by
            obtain ⟨i, hi, h⟩ := hxs y hy
            rw [(a5 c hc).1, h] at hcs
            injection hcs with hcs; omega).append (.cons a2 .nil))
        (fun c hc => by
          rcases List.mem_append.1 hc with hc | hc
          · obtain ⟨i, hi, h⟩ := hlog c hc; exact ⟨i, by omega, h⟩
          · exact ⟨k, by omega, a5 c hc⟩)
        (fun y hy => by
          rcases List.mem_append.1 hy with hy | hy
          · obtain ⟨i, hi, h⟩ := hxs y hy; exact ⟨i, by omega, h⟩
          · rw [List.mem_singleton] at hy; subst hy; exact ⟨k, by omega, rfl⟩) hrest h2
      refine ⟨new ++ new', ?_, ?_, ?_, ?_, ?_, ?_⟩
      · rw [← List.append_assoc]; exact b1
      · rw [← List.append_assoc, List.append_cons]; exact b2
      · rw [sectionCalls_append, a4, b3, List.flatMap_cons]
      · rw [otherCalls_append, a3, b4]; rfl
      · intro c hc
        rcases List.mem_append.1 hc with hc | hc
        · exact ⟨⟨k, (a5 c hc).1⟩, (a5 c hc).2⟩
        · exact b5 c hc
      · intro p' hp'
        rcases List.mem_cons.1 hp' with rfl | hp'
        · exact ⟨d, e, hd, he⟩
        · exact b6 p' hp'

theorem loadSymbolsAll_calls {L : List Loaded} {xs : List Loaded} {objs : List Obj} (hx : ∀ x ∈ xs, x ∈ L)
    (h : Inv env l N L log w) (hk : All2 (fun x o => Knows x log o) xs objs)
    (hc : ∀ x ∈ xs, ∀ i, (x.source, Item.section i) ∈ sectionCalls log ↔ i ∈ x.elf.copied.map (·.2))
    (hr : foldM' loadSymbols w objs = .ok w') :
    ∃ new, Inv env l N L (log ++ new) w' ∧ sectionCalls new = [] ∧ otherCalls new = xs.flatMap Loaded.otherKeys ∧
      (∀ c ∈ new, ∃ x ∈ xs, c.source = x.source) := by
  induction xs generalizing log w objs with
  | nil =>
    cases hk
    cases hr
    exact ⟨[], by simpa using h, rfl, rfl, by simp⟩
  | cons x xs ih =>
    cases hk with
    | cons h1 h2 =>
    rw [foldM'_cons, bind_ok] at hr
    obtain ⟨w1, hr1, hr2⟩ := hr
    obtain ⟨new, a1, a2, a3, a4⟩ := loadSymbols_calls (hx x (by simp)) h h1 (hc x (by simp)) hr1
    obtain ⟨new', b1, b2, b3, b4⟩ := ih (fun y hy => hx y (by simp [hy])) a1
      (h2.imp fun y hy o hyo => hyo.append fun c hc _ => (a4 c hc).2) (by
        intro y hy i
        rw [sectionCalls_append, a2, List.append_nil]
        exact hc y (by simp [hy]) i) hr2
    refine ⟨new ++ new', ?_, ?_, ?_, ?_⟩
    · rw [← List.append_assoc]; exact b1
    · rw [sectionCalls_append, a2, b2]; rfl
    · rw [otherCalls_append, a3, b3, List.flatMap_cons]
    · intro c hc
      rcases List.mem_append.1 hc with hc | hc
      · exact ⟨x, by simp, (a4 c hc).1⟩
      · obtain ⟨y, hy, h⟩ := b4 c hc
        exact ⟨y, by simp [hy], h⟩

theorem loadAll_calls (h0 : Writer.new l.options = .ok w) (hr : loadAll env l w = .ok w') :
    ∃ log, State env l N [] log w' ∧ (∀ p ∈ l.objects, ∃ d e, env.read p = some d ∧ env.parseElf d = some e) := by
  simp only [loadAll, bind_ok] at hr
  obtain ⟨inputs, hi, ⟨objs, w1⟩, h1, h2⟩ := hr
  have hinv : Inv env l N (objectsOf env l) [] w := ⟨.init h0, by intro a c b e; simp at e⟩
  obtain ⟨new, a1, a2, a3, a4, a5, a6⟩ := loadObjects_calls l.objects 0 (fun x hx => hx) hinv (xs := []) .nil (by simp) (by simp) hi h1
  obtain ⟨new', b1, b2, b3, b4⟩ := loadSymbolsAll_calls (xs := objectsOf env l) (fun x hx => hx) a1 a2 (by
    intro x hx i
    rw [List.nil_append, a3, List.mem_flatMap]
    constructor
    · rintro ⟨y, hy, hm⟩
      have hs : y.source = x.source := by
        simp only [Loaded.sectionKeys, List.mem_map, Prod.mk.injEq] at hm
        obtain ⟨_, _, h, _⟩ := hm
        exact h
      rw [objectsFrom_inj hy hx hs] at hm
      exact mem_sectionKeys.1 hm
    · exact fun h => ⟨x, hx, mem_sectionKeys.2 h⟩) h2
  have hsrc : ∀ c ∈ new ++ new', ∃ i, c.source = .object i := by
    intro c hc
    rcases List.mem_append.1 hc with hc | hc
    · exact (a5 c hc).1
    · obtain ⟨x, hx, e⟩ := b4 c hc
      obtain ⟨i, _, hs, _⟩ := mem_objectsFrom (k := 0) hx
      exact ⟨_, e.trans hs⟩
  rw [List.nil_append] at b1
  refine ⟨new ++ new', ⟨by simpa using b1, by simp, ?_, ?_, ?_, ?_, ?_⟩, a6⟩
  · rw [sectionCalls_append, a3, b2]; simp; rfl
  · rw [otherCalls_append, a4, b3]; simp
  · intro a p j op b e
    obtain ⟨i, hi⟩ := hsrc ⟨.library p, .dynsym j, op⟩ (by rw [e]; simp)
    cases hi
  · intro c hc p m s e
    obtain ⟨i, hi⟩ := hsrc c hc
    rw [hi] at e; cases e
  · rw [sectionCalls_append, a3, b2, otherCalls_append, a4, b3, List.append_nil, List.nil_append]
    exact flatMap_keys_nodup (objectsFrom_nodup _ _)

/-! ## The resolution loop -/

theorem mem_undefinedSymbols {order : List Nat → List Nat} (ho : ∀ l, (order l).Perm l) {r : SymbolRef} :
    r ∈ w.undefinedSymbols order ↔ ∃ k s, r = .named k ∧ w.symtab.get (.named k) = some s ∧ isUnresolved s = true := by
  simp only [undefinedSymbols, List.mem_map, List.mem_filter]
  constructor
  · rintro ⟨k, ⟨_, hk⟩, rfl⟩
    rw [Option.any_eq_true_iff_get] at hk
    obtain ⟨hs, hu⟩ := hk
    exact ⟨k, _, rfl, (Option.some_get hs).symm, hu⟩
  · rintro ⟨k, s, rfl, hs, hu⟩
    have hs : AMap.get? w.symtab.symbols k = some s := hs
    exact ⟨k, ⟨(ho _).mem_iff.2 (AMap.mem_keys_of_get? hs), by simp [hs, hu]⟩, rfl⟩

theorem State.round {order : List Nat → List Nat} (ho : ∀ l, (order l).Perm l) {members : List Loaded}
    (h : State env l (Unmet env l order) members log w) : Round l (Unmet env l order) log w (w.undefinedSymbols order) := by
  refine ⟨h.inv.hist, ?_, ?_⟩
  · intro r hr
    obtain ⟨k, s, rfl, hs, _⟩ := (mem_undefinedSymbols ho).1 hr
    exact ⟨k, rfl, by rw [hs]; rfl⟩
  · rintro r hr n ⟨k, rfl, hn⟩
    exact ⟨⟨w, k, h.inv.hist, hr, hn⟩, members, h.sections, h.others⟩

theorem _root_.List.Sublist.eq_of_forall_mem {α : Type} {a b : List α} (h : a.Sublist b) (hn : b.Nodup) (hm : ∀ x ∈ b, x ∈ a) : a = b := by
  induction h with
  | slnil => rfl
  | cons x h ih =>
    rw [List.nodup_cons] at hn
    exact absurd (h.subset (hm x (by simp))) hn.1
  | cons_cons x h ih =>
    rw [List.nodup_cons] at hn
    rw [ih hn.2 (fun y hy => by
      rcases List.mem_cons.1 (hm y (by simp [hy])) with rfl | h
      · exact absurd hy hn.1
      · exact h)]

theorem _root_.Dld.Hist.nodup_undefined {opts : Options} {ops : List Op} (h : Hist opts ops w) {order : List Nat → List Nat}
    (ho : ∀ l, (order l).Perm l) : (w.undefinedSymbols order).Nodup := by
  obtain ⟨ns, nd, hT⟩ := h.tableFacts
  unfold undefinedSymbols
  have h1 : ((order (AMap.keys w.symtab.symbols)).filter fun k => (AMap.get? w.symtab.symbols k).any isUnresolved).Nodup :=
    ((ho _).nodup_iff.2 hT.nodup).filter _
  rw [List.Nodup, List.pairwise_map]
  exact h1.imp fun hne e => hne (by cases e; rfl)

/-- one round -/
theorem resolveRound_calls {sched : LinkSched} (hv : sched.Valid) {members : List Loaded}
    (h : State env l (Unmet env l sched.symIter) members log w) {round cnt : Nat}
    (hr : resolveRound env l sched round (w.undefinedSymbols sched.symIter) w = .ok (w', cnt)) :
    ∃ new xs, State env l (Unmet env l sched.symIter) (members ++ xs) (log ++ new) w' ∧
      ((w.undefinedSymbols sched.symIter).length = cnt → w' = w ∧ ∀ r ∈ w.undefinedSymbols sched.symIter, ∀ n, NameAt w r n →
        ¬ InLibs env (l.options.sharedLibs.map (·.1)) n ∧ ¬ InArchive env l.archives n) ∧
      ((w.undefinedSymbols sched.symIter).length ≠ cnt → ∃ r ∈ w.undefinedSymbols sched.symIter, ∃ n, NameAt w r n ∧
        (Imports new n ∨ Provides env xs n)) := by
  simp only [resolveRound, bind_ok] at hr
  obtain ⟨⟨w1, u1⟩, h1, ⟨w2, u2⟩, h2, hr⟩ := hr
  cases hr
  have hR := h.round hv.toSched.symIter
  simp only [findInLibs] at h1
  simp only [processArchives] at h2
  obtain ⟨new, a1, a2, a3, a4, a5, a6⟩ := findInLibs_calls hR h (List.prefix_refl _) (fun i l => hv.undefLib round i l)
    (l.options.sharedLibs.map (·.1)) 0 (fun p hp => hp) (fun r hr => hr) h1
  have hnot : ∀ r ∈ u1, ∀ n, NameAt w r n → NotInLibs env l n := by
    intro r hr n hn p hp data e hd he s hs hc
    exact (a4 r (a3.subset hr)).1 hr n hn ⟨p, hp, data, e, hd, he, s, hs, hc⟩
  have harch : ∀ p, p ∈ sched.archives l.archives ↔ p ∈ l.archives := fun p => (hv.archives _).mem_iff
  obtain ⟨new', xs, b1, b2, b3, b4, b5⟩ := processArchives_calls hR a1 (List.prefix_append _ _) (fun i l => hv.undefAr round i l)
    (fun i l => hv.members round i l) (sched.archives l.archives) 0 (fun p hp => (harch p).1 hp)
    (fun r hr => ⟨a3.subset hr, hnot r hr⟩) h2
  refine ⟨new ++ new', xs, by rw [← List.append_assoc]; exact b1, ?_, ?_⟩
  · intro hlen
    have e := (b2.trans a3).eq_of_length hlen.symm
    have e1 : u1 = w.undefinedSymbols sched.symIter := a3.eq_of_length_le (by rw [← e]; exact b2.length_le)
    refine ⟨(b5 (e.trans e1.symm)).trans (a6 e1).2, ?_⟩
    intro r hr n hn
    refine ⟨(a4 r hr).1 (by rw [e1]; exact hr) n hn, ?_⟩
    rintro ⟨p, hp, data, ar, hx⟩
    exact (b3 r (by rw [e1]; exact hr)).1 (by rw [e]; exact hr) n hn ⟨p, (harch p).2 hp, data, ar, hx⟩
  · intro hlen
    have hnd := h.inv.hist.nodup_undefined hv.toSched.symIter
    by_cases hall : ∀ r ∈ w.undefinedSymbols sched.symIter, r ∈ u1
    · have e1 : u1 = w.undefinedSymbols sched.symIter := a3.eq_of_forall_mem hnd hall
      by_cases hall2 : ∀ r ∈ u1, r ∈ u2
      · have e2 : u2 = u1 := b2.eq_of_forall_mem (by rw [e1]; exact hnd) hall2
        rw [e2, e1] at hlen
        exact absurd rfl hlen
      · simp only [Classical.not_forall] at hall2
        obtain ⟨r, hr, hn⟩ := hall2
        obtain ⟨n, h1, h2⟩ := b4 r hr hn
        exact ⟨r, by rw [← e1]; exact hr, n, h1, .inr h2⟩
    · simp only [Classical.not_forall] at hall
      obtain ⟨r, hr, hn⟩ := hall
      obtain ⟨n, h1, p, j, s, y, h2⟩ := a5 r hr hn
      exact ⟨r, hr, n, h1, .inl ⟨p, j, s, y, List.mem_append_left _ h2⟩⟩

/-- the loop -/
theorem resolveLoop_calls {sched : LinkSched} (hv : sched.Valid) {members : List Loaded}
    (h : State env l (Unmet env l sched.symIter) members log w) {fuel round : Nat}
    (hr : resolveLoop env l sched fuel round (w.undefinedSymbols sched.symIter) w = some (.ok w')) :
    ∃ new xs, State env l (Unmet env l sched.symIter) (members ++ xs) (log ++ new) w' ∧
      ∀ r ∈ w'.undefinedSymbols sched.symIter, ∀ n, NameAt w' r n →
        ¬ InLibs env (l.options.sharedLibs.map (·.1)) n ∧ ¬ InArchive env l.archives n := by
  induction fuel generalizing members log w round with
  | zero => cases hr
  | succ fuel ih =>
    rw [resolveLoop] at hr
    split at hr
    · cases hr
    · next w1 cnt h1 =>
      obtain ⟨new, xs, a1, a2, a3⟩ := resolveRound_calls hv h h1
      split at hr
      · next hc =>
        cases hr
        obtain ⟨rfl, h2⟩ := a2 hc
        exact ⟨new, xs, a1, h2⟩
      · obtain ⟨new', xs', b1, b2⟩ := ih a1 hr
        exact ⟨new ++ new', xs ++ xs', by rw [← List.append_assoc, ← List.append_assoc]; exact b1, b2⟩

theorem State.calls {members : List Loaded} (h : State env l N members log w)
    (hread : ∀ p ∈ l.objects, ∃ d e, env.read p = some d ∧ env.parseElf d = some e) :
    Calls env l N (objectsOf env l ++ members) log :=
  ⟨h.inv.just, ⟨members, rfl, h.archived⟩, hread, h.sections, h.others, h.needed, h.once⟩

/-- the part of `link` before `compute_sections` (`src/lib.rs` 226-260) -/
def gathered (env : Env) (l : Linker) (sched : LinkSched) (fuel : Nat) : Option (M Writer) :=
  match Writer.new l.options with
  | .error e => some (.error e)
  | .ok w =>
    match loadAll env l w with
    | .error e => some (.error e)
    | .ok w => resolveLoop env l sched fuel 0 (w.undefinedSymbols sched.symIter) w

theorem link_eq (sched : LinkSched) (fuel : Nat) : link env l sched fuel = (gathered env l sched fuel).map fun r =>
    match r with
    | .error e => .error e
    | .ok w => finish l sched w := by
  unfold link gathered
  cases Writer.new l.options with
  | error e => rfl
  | ok w =>
    simp only []
    cases loadAll env l w with
    | error e => rfl
    | ok w1 =>
      simp only []
      cases resolveLoop env l sched fuel 0 (w1.undefinedSymbols sched.symIter) w1 with
      | none => rfl
      | some r => cases r <;> rfl

/-- up to the end of the resolution loop -/
theorem gathered_ok {sched : LinkSched} (hv : sched.Valid) {fuel : Nat} (h : gathered env l sched fuel = some (.ok w)) :
    ∃ log loaded, Calls env l (Unmet env l sched.symIter) loaded log ∧ Hist l.options (opsOf log) w ∧
      (∀ r ∈ w.undefinedSymbols sched.symIter, ∀ n, NameAt w r n →
        ¬ InLibs env (l.options.sharedLibs.map (·.1)) n ∧ ¬ InArchive env l.archives n) := by
  unfold gathered at h
  split at h
  · cases h
  · next w0 h0 =>
    split at h
    · cases h
    · next w1 h1 =>
      obtain ⟨log, a1, a2⟩ := loadAll_calls (N := Unmet env l sched.symIter) h0 h1
      obtain ⟨new, xs, b1, b2⟩ := resolveLoop_calls hv a1 h
      exact ⟨log ++ new, _, b1.calls a2, b1.inv.hist, b2⟩

theorem link_gathered {sched : LinkSched} {fuel : Nat} {res : M Bytes} (h : link env l sched fuel = some res) :
    (∃ e, gathered env l sched fuel = some (.error e) ∧ res = .error e) ∨ ∃ w, gathered env l sched fuel = some (.ok w) ∧ finish l sched w = res := by
  rw [link_eq] at h
  cases hg : gathered env l sched fuel with
  | none => rw [hg] at h; cases h
  | some r =>
    rw [hg] at h
    cases r with
    | error e => cases h; exact .inl ⟨e, rfl, rfl⟩
    | ok w => exact .inr ⟨w, rfl, Option.some.inj h⟩

/-- up to the end of the resolution loop -/
theorem link_resolved {sched : LinkSched} (hv : sched.Valid) {fuel : Nat} {res : M Bytes} (h : link env l sched fuel = some res) :
    (∃ e, gathered env l sched fuel = some (.error e) ∧ res = .error e) ∨ ∃ log loaded w, gathered env l sched fuel = some (.ok w) ∧ Calls env l (Unmet env l sched.symIter) loaded log ∧ Hist l.options (opsOf log) w ∧
      (∀ r ∈ w.undefinedSymbols sched.symIter, ∀ n, NameAt w r n →
        ¬ InLibs env (l.options.sharedLibs.map (·.1)) n ∧ ¬ InArchive env l.archives n) ∧ finish l sched w = res := by
  rcases link_gathered h with h | ⟨w, h, hf⟩
  · exact .inl h
  · obtain ⟨log, loaded, h1, h2, h3⟩ := gathered_ok hv h
    exact .inr ⟨log, loaded, w, h, h1, h2, h3, hf⟩

/-- A successful link is a complete use of the writer's interface. -/
theorem link_ok {sched : LinkSched} (hv : sched.Valid) {fuel : Nat} {file : Bytes} (h : link env l sched fuel = some (.ok file)) :
    ∃ log loaded w w' secs, gathered env l sched fuel = some (.ok w) ∧ Calls env l (Unmet env l sched.symIter) loaded log ∧
      Run l.options (opsOf log) sched.toSched w w' file secs ∧ w'.undefinedSymbols sched.symIter = [] := by
  rcases link_resolved hv h with ⟨e, _, h⟩ | ⟨log, loaded, w, hg, h1, h2, _, hf⟩
  · cases h
  · simp only [finish, bind_ok] at hf
    obtain ⟨w', hc, hf⟩ := hf
    split at hf
    · simp only [bind_ok] at hf
      obtain ⟨_, _, hf⟩ := hf
      cases hf
    · next hu =>
      simp only [bind_ok] at hf
      obtain ⟨⟨bytes, secs⟩, hw, hf⟩ := hf
      cases hf
      exact ⟨log, loaded, w, w', secs, hg, h1, ⟨h2, hv.toSched, hc, hw⟩, Classical.not_not.1 hu⟩

end
end Linker
end Dld
