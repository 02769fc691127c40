import Verif.Spec.Archives
import Verif.Props.Resolve
import Verif.Lemmas.Strongest
import Verif.Props.Files
/-! # Which archive provides a symbol: C137 -/
namespace Dld
open Writer Spec

namespace Linker
variable {env : Env} {l : Linker} {sched : LinkSched} {loaded : List Loaded} {log : List Call} {w w' : Writer} {file : Bytes} {secs : List Section}

/-- **C137**, what holds: every linked member was linked for a name that its archive has, and if no two archives have a name in common, this archive
is the first of the command line with that name. What is missing: names that several archives have (`C137_first_archive_violated`). -/
theorem C137_first_archive_partial (R : LinkRun env l sched loaded log w w' file secs)
    (hd : ∀ p ∈ l.archives, ∀ p' ∈ l.archives, ∀ n, Offers env p n → Offers env p' n → p = p') {x : Loaded} (hx : x ∈ loaded) (hm : x ∉ objectsOf env l) :
    ∃ p n, LinkedFor env l log x p n ∧ FirstArchive env l p n := by
  obtain ⟨ms, e, hms⟩ := R.calls.objects
  rw [e] at hx
  have hx := (List.mem_append.1 hx).resolve_left hm
  cases hms x hx with
  | @mk p data ar n m d el start q hp hrd ha hn hm he ho hs hq hu hl =>
    have hof : Offers env p n := ⟨data, ar, hrd, ha, by rw [hn]; rfl⟩
    refine ⟨p, n, ⟨m, start, data, ar, q, rfl, hrd, ha, hn, hq, hu, hl⟩, hof, ?_⟩
    obtain ⟨a, y, b, e, rfl, hfirst⟩ := first_of_mem (P := fun y => y = p) (l := l.archives) ⟨p, hp, rfl⟩
    exact ⟨a, b, e, fun p' hp' ho' => hfirst p' hp' (hd p' (by rw [e]; simp [hp']) y (by rw [e]; simp) n ho' hof)⟩

end Linker

/-! ## Concrete cases -/

def rivalPath : Path := ⟨b!"lib/libh.a", some b!"libh.a"⟩

/-- The files of the first example, and a second archive with another `g`. -/
def rivalEnv : Env :=
  tableEnv [(mainPath, List.replicate 16 0x90), (libPath, b!"library"), (arPath, b!"archive"), (rivalPath, b!"another")]
    [(List.replicate 16 0x90, mainElf), (b!"library", libElf), (List.replicate 8 0xc3, memberElf), (List.replicate 8 0xcc, memberElf)]
    [(b!"archive", { index := [(b!"g", b!"g.o")], get := AMap.get? [(b!"g.o", List.replicate 8 0xc3)] }),
     (b!"another", { index := [(b!"g", b!"g.o")], get := AMap.get? [(b!"g.o", List.replicate 8 0xcc)] })]

def rivalLinker : Linker := { demoLinker with archives := [arPath, rivalPath] }

/-- the set of archives visited in the other order -/
def LinkSched.flip : LinkSched := { LinkSched.id with archives := List.reverse }

theorem LinkSched.flip_valid : LinkSched.flip.Valid :=
  ⟨LinkSched.id_valid.toSched, LinkSched.id_valid.undefLib, LinkSched.id_valid.undefAr, LinkSched.id_valid.members, fun l => List.reverse_perm l⟩

theorem offers_first : Offers rivalEnv arPath b!"g" :=
  ⟨b!"archive", { index := [(b!"g", b!"g.o")], get := AMap.get? [(b!"g.o", List.replicate 8 0xc3)] }, rfl, rfl, rfl⟩

theorem offers_second : Offers rivalEnv rivalPath b!"g" :=
  ⟨b!"another", { index := [(b!"g", b!"g.o")], get := AMap.get? [(b!"g.o", List.replicate 8 0xcc)] }, rfl, rfl, rfl⟩

namespace Linker

/-- **C137** is violated: which of two archives provides a symbol depends on the iteration order of a hash set. In the one order the program has the
function of the first archive, in the other that of the second. -/
theorem C137_first_archive_violated : ∃ (env : Env) (l : Linker) (p p' : Path) (n : Name) (sched sched' : LinkSched) (file file' : Bytes),
    l.archives = [p, p'] ∧ p ≠ p' ∧ Offers env p n ∧ Offers env p' n ∧ sched.Valid ∧ sched'.Valid ∧
    link env l sched 5 = some (.ok file) ∧ link env l sched' 5 = some (.ok file') ∧
    (bodyNamed file b!".text").drop 16 = List.replicate 8 0xc3 ∧ (bodyNamed file' b!".text").drop 16 = List.replicate 8 0xcc := by
  have h1 : links rivalEnv rivalLinker LinkSched.id 5 (fun _ _ f _ => decide ((bodyNamed f b!".text").drop 16 = List.replicate 8 0xc3)) = true := by
    decide +kernel
  have h2 : links rivalEnv rivalLinker LinkSched.flip 5 (fun _ _ f _ => decide ((bodyNamed f b!".text").drop 16 = List.replicate 8 0xcc)) = true := by
    decide +kernel
  have hc : CleanFiles rivalEnv rivalLinker := CleanFiles.of_table (by decide +kernel)
  obtain ⟨_, _, _, _, f, _, a1, _, _, a2⟩ := LinkRun.of_links LinkSched.id_valid hc h1
  obtain ⟨_, _, _, _, f', _, b1, _, _, b2⟩ := LinkRun.of_links LinkSched.flip_valid hc h2
  exact ⟨rivalEnv, rivalLinker, arPath, rivalPath, b!"g", LinkSched.id, LinkSched.flip, f, f', rfl, by decide, offers_first, offers_second,
    LinkSched.id_valid, LinkSched.flip_valid, a1, b1, of_decide_eq_true a2, of_decide_eq_true b2⟩

end Linker

/-- with the one archive of the first example, the member comes from it -/
example : ∃ loaded log w w' f s x, LinkRun demoEnv demoLinker LinkSched.id loaded log w w' f s ∧ x ∈ loaded ∧ x ∉ objectsOf demoEnv demoLinker ∧
    ∃ p n, LinkedFor demoEnv demoLinker log x p n ∧ FirstArchive demoEnv demoLinker p n := by
  obtain ⟨log, loaded, w, w', f, s, _, _, h3, hp⟩ := LinkRun.of_links (P := fun w _ _ s => (secsNamed w s b!".text").all fun o => o.size == 24) (fuel := 5)
    LinkSched.id_valid demo_files (by decide +kernel)
  rw [h3.good.toGoodRun.secsNamed_eq, List.all_eq_true] at hp
  obtain ⟨ms, e, hms⟩ := h3.calls.objects
  cases ms with
  | nil =>
    rw [List.append_nil] at e
    obtain ⟨o, h1, h2, _⟩ := C111_contents h3 demo_files (pre := []) e (i := 1) (n := b!".text") ⟨rfl, by decide, rfl, by decide⟩
    have := hp o (by rw [h1]; simp)
    rw [h2, e] at this
    exact absurd this (by decide +kernel)
  | cons x ms =>
    have hx : x ∈ loaded := by rw [e]; simp
    have hm : x ∉ objectsOf demoEnv demoLinker := fun h => by
      obtain ⟨i, _, _, h1, _⟩ := mem_objectsOf.1 h
      cases hms x (by simp) with
      | mk => cases h1
    refine ⟨loaded, log, w, w', f, s, x, h3, hx, hm, Linker.C137_first_archive_partial h3 ?_ hx hm⟩
    intro p hp p' hp' _ _ _
    rw [show demoLinker.archives = [arPath] from rfl, List.mem_singleton] at hp hp'
    rw [hp, hp']

end Dld
