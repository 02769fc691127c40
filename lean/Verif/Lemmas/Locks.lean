import Verif.Model.Locks
import Verif.Lemmas.Bounds
/-! # Lemmas: lock operations that never block -/
namespace Dld
open Writer

/-- the operations run through and release what they take -/
def Calm (held : Held) (t : List LockEv) : Prop := runLocks held t = some held

instance (held : Held) (t : List LockEv) : Decidable (Calm held t) := inferInstanceAs (Decidable (_ = _))

theorem runLocks_append (held : Held) (a b : List LockEv) :
    runLocks held (a ++ b) = (runLocks held a).bind fun h => runLocks h b := by
  induction a generalizing held with
  | nil => rfl
  | cons e a ih =>
    simp only [List.cons_append, runLocks]
    cases e.step held with
    | none => rfl
    | some h => exact ih h

theorem Calm.nil (held : Held) : Calm held [] := rfl

theorem Calm.append {held : Held} {a b : List LockEv} (h1 : Calm held a) (h2 : Calm held b) : Calm held (a ++ b) := by
  unfold Calm at *
  rw [runLocks_append, h1]; exact h2

theorem Calm.flatMap {α : Type} {held : Held} {l : List α} {f : α → List LockEv} (h : ∀ x ∈ l, Calm held (f x)) :
    Calm held (l.flatMap f) := by
  induction l with
  | nil => exact .nil _
  | cons x l ih => exact .append (h x (by simp)) (ih fun y hy => h y (by simp [hy]))

theorem Calm.rd {held : Held} {p : Nat} {body : List LockEv} (hp : (p, true) ∉ held) (h : Calm ((p, false) :: held) body) :
    Calm held (rd p body) := by
  unfold Calm at *
  unfold Dld.rd
  simp only [runLocks, LockEv.step, if_neg hp]
  rw [runLocks_append, h]
  simp [runLocks, LockEv.step]

theorem Calm.wr {held : Held} {p : Nat} {body : List LockEv} (hp : (p, true) ∉ held) (hp' : (p, false) ∉ held)
    (h : Calm ((p, true) :: held) body) : Calm held (wr p body) := by
  unfold Calm at *
  unfold Dld.wr
  simp only [runLocks, LockEv.step, hp, hp', or_self, if_false]
  rw [runLocks_append, h]
  simp [runLocks, LockEv.step]

theorem Calm.ite {held : Held} {c : Prop} [Decidable c] {a b : List LockEv} (h1 : c → Calm held a) (h2 : ¬ c → Calm held b) :
    Calm held (if c then a else b) := by
  split
  · exact h1 ‹_›
  · exact h2 ‹_›

variable {opts : Options} {ops : List Op} {sched : Sched} {w w' : Writer} {file : Bytes} {secs : List Section}

/-! ### The calls -/

theorem Step.run_op {op : Op} (h : Step w op w') : op.run w = .ok w' := by
  cases h with
  | push h => simp [Op.run, h, bind, Except.bind]
  | sym h => simp [Op.run, h, bind, Except.bind]
  | dynsym h => simp [Op.run, h, bind, Except.bind]
  | reloc h => exact h
  | needed => rfl

theorem Hist.run_ops (h : Hist opts ops w) : runOps opts ops = .ok w := by
  induction h with
  | init h0 => simp [runOps, h0, bind, Except.bind, foldM'_nil]
  | @step ops op w1 w2 h hs ih =>
    simp only [runOps, bind_ok] at ih ⊢
    obtain ⟨w0, h0, h1⟩ := ih
    refine ⟨w0, h0, ?_⟩
    rw [foldM'_append, bind_ok]
    refine ⟨w1, h1, ?_⟩
    rw [foldM'_cons, bind_ok]
    exact ⟨w2, hs.run_op, foldM'_nil _ _⟩

theorem opsLocks_append (tr : Bool) : ∀ (a b : List Op) (w0 w : Writer) (t : List LockEv), foldM' Op.run w0 a = .ok w →
    opsLocks tr w0 a = .ok t → opsLocks tr w0 (a ++ b) = (do let u ← opsLocks tr w b; .ok (t ++ u)) := by
  intro a
  induction a with
  | nil =>
    intro b w0 w t h h'
    cases h; cases h'
    simp only [List.nil_append]
    cases opsLocks tr w0 b <;> rfl
  | cons op a ih =>
    intro b w0 w t h h'
    rw [foldM'_cons, bind_ok] at h
    obtain ⟨w1, h1, h2⟩ := h
    simp only [opsLocks, h1, bind, Except.bind] at h'
    cases ht : opsLocks tr w1 a with
    | error e => rw [ht] at h'; cases h'
    | ok t1 =>
      rw [ht] at h'
      cases h'
      simp only [List.cons_append, opsLocks, h1, bind, Except.bind]
      rw [ih b w1 w t1 h2 ht]
      cases opsLocks tr w b with
      | error e => rfl
      | ok u => simp [bind, Except.bind, List.append_assoc]

/-- section references are those of pushed sections, never one of the tables -/
theorem Hist.ref_ptr (h : Hist opts ops w) (hc : CleanInputs ops) {n : Name} {sh : SectionHeader} {d : Option Bytes} {r : SectionRef}
    (hp : Op.push n sh d r ∈ ops) : r.ptr = P.null ∨ P.first ≤ r.ptr := by
  by_cases hn : n = []
  · subst hn; exact .inl (h.null_push hp)
  · obtain ⟨s, _, hsp, hf, _⟩ := h.pushed_section hp (hc.foreign hp hn _)
    exact .inr (by rw [← hsp]; exact hf)

/-- one call -/
theorem opLocks_calm {tr : Bool} {op : Op} (h : ∀ s sr n path y, op = .sym s (some sr) n path y → sr.ptr ≠ P.symstr ∧ sr.ptr ≠ P.sym) :
    Calm [] (opLocks tr w op) := by
  have e : ∀ p, Calm [] (wr p []) := fun p => .wr (by simp) (by simp) (.nil _)
  cases op with
  | push n sh d r =>
    refine .append (.append (e _) (.ite (fun _ => .nil _) fun _ => ?_)) (.ite (fun _ => .rd (by simp) (.nil _)) fun _ => .nil _)
    split
    · exact e _
    · exact .nil _
  | sym s sec n path y =>
    refine .wr (by simp) (by simp) (.wr (by decide) (by decide) ?_)
    cases sec with
    | none => exact .nil _
    | some sr =>
      obtain ⟨h1, h2⟩ := h s sr n path y rfl
      exact .ite (fun _ => .wr (by simp [h1, h2]) (by simp) (.nil _)) fun _ => .nil _
  | dynsym s n path y =>
    refine .append (.wr (by simp) (by simp) (.wr (by decide) (by decide) (.nil _))) (.rd (by simp) ?_)
    exact .ite (fun _ => .wr (by decide) (by decide) (.nil _)) fun _ => .nil _
  | reloc rel y sr path => exact e _
  | needed n => exact e _

/-- the calls of a history -/
theorem Hist.opsLocks_calm {tr : Bool} (h : Hist opts ops w) {w0 : Writer} (h0 : Writer.new opts = .ok w0)
    (href : ∀ s sr n path y, Op.sym s (some sr) n path y ∈ ops → sr.ptr ≠ P.symstr ∧ sr.ptr ≠ P.sym) :
    ∃ t, opsLocks tr w0 ops = .ok t ∧ Calm [] t := by
  induction h with
  | init _ => exact ⟨[], rfl, .nil _⟩
  | @step ops op w1 w2 h hs ih =>
    obtain ⟨t, ht, hc⟩ := ih fun s sr n path y hm => href s sr n path y (by simp [hm])
    have hr := h.run_ops
    simp only [runOps, bind_ok] at hr
    obtain ⟨w0', h0', h1⟩ := hr
    cases h0.symm.trans h0'
    refine ⟨t ++ opLocks tr w1 op, ?_, hc.append (opLocks_calm fun s sr n path y e => href s sr n path y (by simp [e]))⟩
    rw [opsLocks_append tr ops [op] w0 w1 t h1 ht]
    simp [opsLocks, hs.run_op, bind, Except.bind]

/-! ### `compute_sections` -/

theorem scanLocks_calm (h : ∀ s ∈ w.sections, (s.ptr = P.sym ∨ s.ptr = P.plt) → s.chunks = []) : Calm [] (scanLocks w) := by
  refine .flatMap fun s hs => .wr (by simp) (by simp) (.flatMap fun c hc => ?_)
  have hne : s.ptr ≠ P.sym ∧ s.ptr ≠ P.plt := by
    constructor <;> intro e <;> rw [h s hs (by simp [e])] at hc <;> cases hc
  refine .wr (by simpa using fun e => hne.1 e.symm) (by simp) (.flatMap fun e _ => ?_)
  refine .ite (fun _ => .wr ?_ (by simp) (.nil _)) fun _ => .nil _
  simp only [List.mem_cons, Prod.mk.injEq, and_true, List.not_mem_nil, or_false, not_or]
  exact ⟨by decide, fun e => hne.2 e.symm⟩

theorem expandLocks_calm {hs : HashStyle} (h : ∀ s ∈ w.sections, s.ptr = P.dynsym → s.sh.sh_type = SHT_DYNSYM) :
    Calm [] (expandLocks hs w) := by
  refine .append (.wr (by simp) (by simp) (.nil _)) (.rd (by simp) (.append (.append ?_ ?_) (.flatMap fun s hm => ?_)))
  · exact .ite (fun _ => .wr (by decide) (by decide) (.nil _)) fun _ => .nil _
  · exact .ite (fun _ => .wr (by decide) (by decide) (.nil _)) fun _ => .nil _
  · refine .append (.rd (by simp) (.nil _)) (.ite (fun hne => .wr (by simp) ?_ (.nil _)) fun _ => .nil _)
    simp only [List.mem_cons, Prod.mk.injEq, and_true, List.not_mem_nil, or_false]
    exact fun e => hne (h s hm e)

theorem dynLocks_calm : Calm [] (dynLocks sched w) := by
  unfold Calm dynLocks
  have h1 : Calm [(P.shstr, false), (P.dynsym, true), (P.sym, true)]
      ((sched.symIter (AMap.keys w.symtab.symbols)).flatMap (dynRelLocks w) ++ wr P.relaDyn [] ++ wr P.relaPlt []) := by
    refine .append (.append (.flatMap fun k _ => ?_) (.wr (by decide) (by decide) (.nil _))) (.wr (by decide) (by decide) (.nil _))
    unfold dynRelLocks
    split
    · exact .nil _
    · exact .ite (fun _ => .wr (by decide) (by decide) (.nil _)) fun _ => .nil _
  have h2 : Calm [(P.shstr, false)] (w.sections.flatMap (fun s => rd s.ptr []) ++ wr P.dynamic []) :=
    .append (.flatMap fun s _ => .rd (by simp) (.nil _)) (.wr (by decide) (by decide) (.nil _))
  have e0 : runLocks [] [.write P.sym, .write P.dynsym, .read P.shstr] = some [(P.shstr, false), (P.dynsym, true), (P.sym, true)] := by decide
  have e1 : runLocks [(P.shstr, false), (P.dynsym, true), (P.sym, true)] [.unwrite P.sym, .unwrite P.dynsym] = some [(P.shstr, false)] := by decide
  have e2 : runLocks [(P.shstr, false)] [.unread P.shstr] = some [] := by decide
  have he : ∀ (a b c d e f g h : List LockEv), a ++ b ++ c ++ d ++ e ++ f ++ g ++ h = a ++ ((b ++ c ++ d) ++ (e ++ ((f ++ g) ++ h))) := by
    intros; simp [List.append_assoc]
  rw [he, runLocks_append, e0, Option.bind_some, runLocks_append, h1, Option.bind_some, runLocks_append, e1, Option.bind_some,
    runLocks_append, h2, Option.bind_some, e2]

theorem sortLocks_calm (cmps : List (Nat × Nat)) : Calm [] (sortLocks cmps w) :=
  .append (.flatMap fun _ _ => .rd (by simp) (.rd (by simp) (.nil _))) (.flatMap fun _ _ => .wr (by simp) (by simp) (.nil _))

theorem programLocks_calm : Calm [] (programLocks w) := by
  refine .append (.flatMap fun _ _ => .rd (by simp) (.nil _)) (.flatMap fun s _ => ?_)
  have h : Calm [(s.ptr, false)] (rd P.shstr []) := .rd (by simp) (.nil _)
  have e : runLocks [] [.write s.ptr, .downgrade s.ptr] = some [(s.ptr, false)] := by simp [runLocks, LockEv.step]
  unfold Calm
  rw [runLocks_append, runLocks_append, e, Option.bind_some, h]
  simp [runLocks, LockEv.step]

theorem entriesLocks_calm : Calm [] (entriesLocks w) :=
  .flatMap fun _ _ => .rd (by simp) (.rd (by simp) (.nil _))

theorem specialLocks_calm {skip : List Nat}
    (h1 : ∀ s ∈ w.sections, s.sh.sh_name ∉ skip → s.ptr ≠ P.symstr ∧ s.ptr ≠ P.shstr)
    (h2 : ∀ s ∈ w.sections, ∀ n, n = b!".init_array" ∨ n = b!".fini_array" → w.shstr.shName n = some s.sh.sh_name → s.ptr ≠ P.sym) :
    Calm [] (specialLocks w skip) := by
  refine .rd (by simp) (.rd (by decide) (.append (.append (.append (.append ?_ ?_) ?_) (.flatMap fun s hs => ?_)) ?_))
  · exact .rd (by decide) (.nil _)
  · split
    · exact .wr (by decide) (by decide) (.ite (fun _ => .rd (by decide) (.nil _)) fun _ => .nil _)
    · exact .nil _
  · exact .rd (by decide) (.rd (by decide) (.nil _))
  · refine .append (.rd (by simp) (.nil _)) (.ite (fun _ => .nil _) fun hn => ?_)
    obtain ⟨a, b⟩ := h1 s hs hn
    refine .wr (by simp) (by simp [a, b]) ?_
    have key : s.ptr ≠ P.sym → Calm ((s.ptr, true) :: [(P.shstr, false), (P.symstr, false)]) (wr P.sym []) := fun hne =>
      .wr (by simpa using fun e => hne e.symm) (by simp; decide) (.nil _)
    unfold boundLocks
    refine .ite (fun e => .ite (fun _ => key (h2 s hs _ (.inl rfl) e)) fun _ => .nil _) fun _ => ?_
    exact .ite (fun e => .ite (fun _ => key (h2 s hs _ (.inr rfl) e)) fun _ => .nil _) fun _ => .nil _
  · exact .rd (by decide) (.wr (by decide) (by decide) (.nil _))

theorem relocLocks_calm {names : List Nat} (h : ∀ s ∈ w.sections, relocatable names s = true → s.ptr ≠ P.sym ∧ s.ptr ≠ P.dynsym) :
    Calm [] (relocLocks w names) := by
  refine .append (.append (.append (.append ?_ ?_) ?_) (.flatMap fun s hs => ?_)) (.rd (by simp) (.rd (by decide) (.flatMap fun s hs => ?_)))
  · exact .rd (by simp) (.nil _)
  · exact .rd (by simp) (.nil _)
  · exact .rd (by simp) (.rd (by decide) (.nil _))
  · refine .append (.rd (by simp) (.nil _)) (.ite (fun hr => ?_) fun _ => .nil _)
    obtain ⟨a, _⟩ := h s (List.mem_of_mem_drop hs) hr
    exact .wr (by simp) (by simp) (.wr (by simp [a]) (by simp) (.nil _))
  · refine .append (.rd (by simp) (.nil _)) (.ite (fun hr => ?_) fun _ => .nil _)
    obtain ⟨a, b⟩ := h s (List.mem_of_mem_drop hs) hr
    exact .wr (by simp) (by simp [a, b]) (.nil _)

theorem finishLocks_calm : Calm [] (finishLocks w) :=
  .append (.rd (by simp) (.ite (fun _ => .rd (by decide) (.nil _)) fun _ => .nil _)) (.rd (by simp) (.nil _))

theorem writeLocks_calm (h : ∀ s ∈ w.sections, s.link ≠ some s.ptr) : Calm [] (writeLocks false w) := by
  refine .append (.flatMap fun s hs => .wr (by simp) (by simp) (.append (.nil _) ?_)) (.flatMap fun _ _ => .wr (by simp) (by simp) (.nil _))
  split
  · next p hl =>
    refine .rd ?_ (.nil _)
    simp only [List.mem_cons, Prod.mk.injEq, and_true, List.not_mem_nil, or_false]
    intro e; exact h s hs (by rw [hl, e])
  · exact .nil _

/-! ### The sections at each stage -/

theorem expand_tag (s : Section) : tag (expand sched w s) = tag s := by
  unfold expand
  cases s.kind <;> rfl

theorem Writer.Early.filled_tag (st : Early sched w) : st.filled.sections.map tag = w.sections.map tag := by
  have h := st.hfill
  simp only [fillHashes, bind_ok] at h
  obtain ⟨a, _, b, _, h⟩ := h
  have e : st.filled.sections = (expandDynsym sched (resizeGotPlt (resizeGot st.scanned))).sections := by
    rw [← Except.ok.inj h]
  rw [e, ← st.scanned_tag]
  have h1 : (resizeGot st.scanned).sections.map tag = st.scanned.sections.map tag := modSec_map (f := growZero _) (F := tag) (fun _ _ => rfl)
  have h2 : (resizeGotPlt (resizeGot st.scanned)).sections.map tag = (resizeGot st.scanned).sections.map tag :=
    modSec_map (f := growZero _) (F := tag) (fun _ _ => rfl)
  have h3 : (expandDynsym sched (resizeGotPlt (resizeGot st.scanned))).sections.map tag = (resizeGotPlt (resizeGot st.scanned)).sections.map tag :=
    modSec_map (F := tag) (fun s _ => expand_tag s)
  rw [h3, h2, h1]

/-- what the sections of a later stage have in common with those of the history -/
structure SameIds (w : Writer) (l : List Section) : Prop where
  nodup : (l.map (·.ptr)).Nodup
  src : ∀ s ∈ l, ∃ t ∈ w.sections, s.ptr = t.ptr ∧ s.link = t.link ∧ s.sh.sh_name = t.sh.sh_name

theorem SameIds.congr {l l' : List Section} (h : SameIds w l) (e : l'.map post = l.map post) : SameIds w l' := by
  refine ⟨?_, fun s hs => ?_⟩
  · have : l'.map (·.ptr) = l.map (·.ptr) := map_of_map e (fun b => b.1) (fun _ => rfl)
    rw [this]; exact h.nodup
  · obtain ⟨t, ht, e⟩ := mem_post e hs
    obtain ⟨u, hu, h1, h2, h3⟩ := h.src t ht
    exact ⟨u, hu, (congrArg (·.1) e).trans h1, (congrArg (·.2.2.1) e).trans h2, (congrArg (·.2.2.2.2.sh_name) e).trans h3⟩

theorem Writer.Early.placed_ids (hv : sched.Valid) (st : Early sched w) {hs : HashStyle} (hsf : SecFacts hs ops w)
    (hu : Untouched w) : SameIds w st.placed.sections := by
  refine ⟨st.placed_nodup hv hsf hu, fun s hm => ?_⟩
  obtain ⟨h1, h2⟩ := st.placed_frames hv hsf hu
  have h3 : (st.placed.sections.map frame).Perm (w.sections.map st.grown) := by
    rw [← List.take_append_drop 1 st.placed.sections, ← List.take_append_drop 1 w.sections, List.map_append, List.map_append, h1]
    exact h2.append_left _
  obtain ⟨t, ht, e⟩ := List.mem_map.1 (h3.mem_iff.1 (List.mem_map_of_mem hm))
  exact ⟨t, ht, (congrArg (·.1) e).symm, (congrArg (·.2.1) e).symm, (congrArg (·.2.2.2.1.sh_name) e).symm⟩

theorem sec_mem {p : Nat} {s : Section} (h : w.sec p = .ok s) : s ∈ w.sections ∧ s.ptr = p := by
  unfold sec unwrap at h
  split at h
  · next hf =>
    cases h
    exact ⟨List.mem_of_find?_eq_some hf, by simpa using List.find?_some hf⟩
  · cases h

/-- a section that does not have the name of another is not that other -/
theorem SameIds.ne {x : Writer} (h : SameIds w x.sections) {p : Nat} {a s : Section} (ha : x.sec p = .ok a) (hs : s ∈ x.sections)
    (hne : s.sh.sh_name ≠ a.sh.sh_name) : s.ptr ≠ p := by
  intro e
  obtain ⟨h1, h2⟩ := sec_mem ha
  have := find_nodup h.nodup hs h1 e h2
  exact hne (by rw [this])

end Dld
