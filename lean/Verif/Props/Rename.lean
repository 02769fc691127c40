import Verif.Lemmas.Rename
import Verif.Lemmas.DemoLink
/-! # C127: the executable does not depend on where the files are -/
namespace Dld
namespace Linker

variable {f : Path → Path} {env env' : Env} {l : Linker}

theorem renOutcome_eq (o : Option (M Bytes)) : o.map (both f id) = renOutcome f o := by
  cases o with
  | none => rfl
  | some x => cases x <;> rfl

/-- **C127** (the same orders): the same files at other places give the same executable, byte for byte, or the same error about the new places; and the
resolution loop ends after the same number of rounds. -/
theorem C127_moved {sched sched' : LinkSched} (m : FilesMoved f env env' l) (so : SameOrders f l sched sched') (hv : sched.Valid) (fuel : Nat) :
    link env' (l.ren f) sched' fuel = renOutcome f (link env l sched fuel) := by
  rw [link_ren f m so hv, renOutcome_eq]

/-- a permutation of the new names is a permutation of the old ones, renamed -/
theorem perm_map_inv {α β : Type} {g : α → β} {l₁ l₂ : List β} (h : l₁.Perm l₂) : ∀ l : List α, l₂ = l.map g → ∃ k : List α, k.Perm l ∧ l₁ = k.map g := by
  induction h with
  | nil =>
    intro l e
    refine ⟨[], ?_, rfl⟩
    cases l with
    | nil => exact List.Perm.refl _
    | cons => cases e
  | cons x h ih =>
    intro l e
    cases l with
    | nil => cases e
    | cons a l =>
      cases e
      obtain ⟨k, hk, e⟩ := ih l rfl
      exact ⟨a :: k, hk.cons a, by rw [e]; rfl⟩
  | swap x y r =>
    intro l e
    cases l with
    | nil => cases e
    | cons a l =>
      cases l with
      | nil => cases e
      | cons b l =>
        cases e
        exact ⟨b :: a :: l, List.Perm.swap _ _ _, rfl⟩
  | trans h1 h2 ih1 ih2 =>
    intro l e
    obtain ⟨k, hk, e⟩ := ih2 l e
    obtain ⟨k', hk', e'⟩ := ih1 k e
    exact ⟨k', hk'.trans hk, e'⟩

/-- **C127** (any orders): whatever can come out of the link with the files at one place can come out of it with the files at the other, and nothing else. -/
theorem C127_outcomes (m : FilesMoved f env env' l) :
    (∀ sched : LinkSched, sched.Valid → ∃ sched' : LinkSched, sched'.Valid ∧ ∀ fuel, link env' (l.ren f) sched' fuel = renOutcome f (link env l sched fuel)) ∧
    (∀ sched' : LinkSched, sched'.Valid → ∃ sched : LinkSched, sched.Valid ∧ ∀ fuel, link env' (l.ren f) sched' fuel = renOutcome f (link env l sched fuel)) := by
  constructor
  · intro sched hv
    have so : SameOrders f l sched { sched with archives := fun k => if k = l.archives.map f then (sched.archives l.archives).map f else k } :=
      ⟨rfl, rfl, rfl, rfl, if_pos rfl⟩
    refine ⟨_, ?_, fun fuel => C127_moved m so hv fuel⟩
    refine ⟨hv.toSched, hv.undefLib, hv.undefAr, hv.members, fun k => ?_⟩
    show List.Perm (if _ then _ else _) _
    split
    · next e => rw [e]; exact (hv.archives _).map f
    · exact List.Perm.refl _
  · intro sched' hv
    obtain ⟨k, hk, e⟩ := perm_map_inv (hv.archives (l.archives.map f)) l.archives rfl
    have hv1 : LinkSched.Valid { sched' with archives := fun a => if a = l.archives then k else a } := by
      refine ⟨hv.toSched, hv.undefLib, hv.undefAr, hv.members, fun a => ?_⟩
      show List.Perm (if _ then _ else _) _
      split
      · next e => rw [e]; exact hk
      · exact List.Perm.refl _
    have so : SameOrders f l { sched' with archives := fun a => if a = l.archives then k else a } sched' := by
      refine ⟨rfl, rfl, rfl, rfl, ?_⟩
      show _ = List.map f (if _ then _ else _)
      rw [if_pos rfl]
      exact e
    exact ⟨_, hv1, fun fuel => C127_moved m so hv1 fuel⟩

/-- **C127** (executables): in particular, an executable comes out at one place exactly when it comes out at the other. -/
theorem C127_executable {sched sched' : LinkSched} (m : FilesMoved f env env' l) (so : SameOrders f l sched sched') (hv : sched.Valid) (fuel : Nat) (file : Bytes) :
    link env' (l.ren f) sched' fuel = some (.ok file) ↔ link env l sched fuel = some (.ok file) := by
  rw [C127_moved m so hv]
  cases h : link env l sched fuel with
  | none => exact Iff.rfl
  | some x =>
    cases x with
    | ok b => exact Iff.rfl
    | error e => constructor <;> intro h <;> cases h

/-! ## Examples -/

/-- everything into another directory -/
def elsewhere (p : Path) : Path := if p.full = [] then p else ⟨b!"/x/" ++ p.full, p.file⟩

/-- and back -/
def comeBack (p : Path) : Path := if p.full = [] then p else ⟨p.full.drop 3, p.file⟩

def movedEnv : Env := { demoEnv with read := fun p => demoEnv.read (comeBack p) }

theorem demo_moved : FilesMoved elsewhere demoEnv movedEnv demoLinker where
  read := by decide +kernel
  elf := rfl
  ar := rfl
  names := by decide +kernel
  empty := rfl

/-- The demo with an archive and a library, all in another directory. -/
example : (demoLinker.ren elsewhere).objects = [⟨b!"/x/main.o", some b!"main.o"⟩] ∧
    (demoLinker.ren elsewhere).archives = [⟨b!"/x/lib/libg.a", some b!"libg.a"⟩] ∧
    ∃ file, link demoEnv demoLinker LinkSched.id 5 = some (.ok file) ∧ link movedEnv (demoLinker.ren elsewhere) LinkSched.id 5 = some (.ok file) := by
  refine ⟨rfl, rfl, ?_⟩
  obtain ⟨log, loaded, w, w', file, s, h, _⟩ := LinkRun.of_links LinkSched.id_valid demo_files demo_links
  exact ⟨file, h, (C127_executable demo_moved ⟨rfl, rfl, rfl, rfl, rfl⟩ LinkSched.id_valid 5 file).2 h⟩

/-- An error names the new place. -/
example : renOutcome elsewhere (some (.error (.err mainPath (.alreadyDefined b!"f" libPath)))) =
    some (.error (.err ⟨b!"/x/main.o", some b!"main.o"⟩ (.alreadyDefined b!"f" ⟨b!"/x/lib/libf.so", some b!"libf.so"⟩))) := by
  decide +kernel

end Linker
end Dld
