import Verif.Spec.Damaged
import Verif.Props.Complete
/-! # C145: inputs that are missing or damaged -/
namespace Dld

theorem foldM'_each {ε σ α : Type} {f : σ → α → Except ε σ} : ∀ {l : List α} {s s' : σ}, foldM' f s l = .ok s' → ∀ a ∈ l, ∃ s1 s2, f s1 a = .ok s2
  | [], _, _, _, _, ha => by cases ha
  | b :: l, s, s', h, a, ha => by
    rw [foldM'_cons, bind_ok] at h
    obtain ⟨s1, h1, h2⟩ := h
    rcases List.mem_cons.1 ha with rfl | ha
    · exact ⟨_, _, h1⟩
    · exact foldM'_each h2 a ha

namespace Linker
variable {env : Env} {l : Linker} {sched : LinkSched} {fuel : Nat} {F : List Nat} {V K : Nat}

/-- all libraries and archives could be read and parsed if the inputs were gathered -/
theorem gathered_readable (hv : sched.Valid) {w : Writer} (h : gathered env l sched fuel = some (.ok w)) :
    (∀ p ∈ l.options.sharedLibs.map (·.1), ∃ d e, env.read p = some d ∧ env.parseElf d = some e) ∧
    (∀ p ∈ l.archives, ∃ d ar, env.read p = some d ∧ env.parseAr d = some ar) := by
  unfold gathered at h
  split at h
  · cases h
  · split at h
    · cases h
    · next w1 h1 =>
      cases fuel with
      | zero => cases h
      | succ fuel =>
        rw [resolveLoop] at h
        split at h
        · cases h
        · next w2 n hr =>
          simp only [resolveRound, bind_ok] at hr
          obtain ⟨⟨w3, next⟩, hl, hr⟩ := hr
          simp only [bind_ok] at hr
          obtain ⟨⟨w4, next'⟩, ha, _⟩ := hr
          constructor
          · intro p hp
            obtain ⟨i, hi⟩ := List.getElem?_of_mem hp
            obtain ⟨s1, s2, hs⟩ := foldM'_each hl (p, i) (List.mem_zipIdx_iff_getElem?.2 hi)
            simp only [searchLib, bind_ok] at hs
            obtain ⟨d, hd, e, he, _⟩ := hs
            exact ⟨d, e, orErr_ok.1 hd, unwrap_ok.1 he⟩
          · intro p hp
            obtain ⟨i, hi⟩ := List.getElem?_of_mem ((hv.archives l.archives).mem_iff.2 hp)
            obtain ⟨s1, s2, hs⟩ := foldM'_each ha (p, i) (List.mem_zipIdx_iff_getElem?.2 hi)
            simp only [searchArchive, bind_ok] at hs
            obtain ⟨d, hd, e, he, _⟩ := hs
            exact ⟨d, e, orErr_ok.1 hd, orErr_ok.1 he⟩

/-- with a damaged input the inputs are never gathered -/
theorem not_gathered (hv : sched.Valid) {p : Path} (D : Damaged env l p) {w : Writer} : gathered env l sched fuel ≠ some (.ok w) := by
  intro h
  obtain ⟨log, loaded, hcalls, _⟩ := gathered_ok hv h
  obtain ⟨hlibs, hars⟩ := gathered_readable hv h
  cases D with
  | missing hp hr =>
    rcases hp with hp | hp | hp
    · obtain ⟨d, e, h1, _⟩ := hcalls.readable p hp
      rw [hr] at h1; cases h1
    · obtain ⟨d, e, h1, _⟩ := hlibs p hp
      rw [hr] at h1; cases h1
    · obtain ⟨d, e, h1, _⟩ := hars p hp
      rw [hr] at h1; cases h1
  | object hp hd he =>
    obtain ⟨d, e, h1, h2⟩ := hcalls.readable p hp
    rw [hd] at h1; cases h1; rw [he] at h2; cases h2
  | library hp hd he =>
    obtain ⟨d, e, h1, h2⟩ := hlibs p hp
    rw [hd] at h1; cases h1; rw [he] at h2; cases h2
  | archive hp hd he =>
    obtain ⟨d, e, h1, h2⟩ := hars p hp
    rw [hd] at h1; cases h1; rw [he] at h2; cases h2

/-- **C145** is violated by every damaged library in the first place: if the objects can be linked on their own, the link with the library crashes. -/
theorem C145_library_violated {p : Path} {b : Bool} {rest : List (Path × Bool)} {d : Bytes} (hl : l.options.sharedLibs = (p, b) :: rest)
    (hd : env.read p = some d) (he : env.parseElf d = none) {file : Bytes} {fuel' : Nat} (ho : link env l.objectsAlone sched fuel' = some (.ok file)) :
    link env l sched (fuel + 1) = some (.error .panic) := by
  have e0 : Writer.new l.objectsAlone.options = Writer.new l.options := rfl
  have e1 : ∀ w, loadAll env l.objectsAlone w = loadAll env l w := fun _ => rfl
  unfold link at ho ⊢
  rw [e0] at ho
  cases h0 : Writer.new l.options with
  | error e => rw [h0] at ho; cases ho
  | ok w =>
    rw [h0] at ho
    simp only [e1] at ho
    cases h1 : loadAll env l w with
    | error e => rw [h1] at ho; cases ho
    | ok w1 =>
      have key : resolveLoop env l sched (fuel + 1) 0 (w1.undefinedSymbols sched.symIter) w1 = some (.error .panic) := by
        rw [resolveLoop]
        have : findInLibs env l (sched.undefLib 0) (w1.undefinedSymbols sched.symIter) w1 = .error .panic := by
          simp only [findInLibs, hl, List.map_cons, List.zipIdx_cons, foldM'_cons, searchLib, hd, orErr, ok_bind, he, unwrap]
          rfl
        simp only [resolveRound, this]
        rfl
      simp only [h1, key]

/-- **C145, the part that holds.** No link with a missing or damaged input succeeds. If the files that can be read are complete (in particular, the libraries that can be read
can be parsed), it ends with an error, and the error is justified by the input it names. Missing: libraries that can be read and not parsed (`C145_library_violated`). -/
theorem C145_reported_partial (hv : sched.Valid) {p : Path} (D : Damaged env l p) {r : M Bytes} (h : link env l sched fuel = some r) :
    (∀ file, r ≠ .ok file) ∧
    (CleanFiles env l → SoundFiles env l → NamesSmall env l → ∃ q k, r = .error (.err q k) ∧ Blame env l q k) := by
  rcases link_gathered h with ⟨e, hg, rfl⟩ | ⟨w, hg, _⟩
  · refine ⟨(fun _ h => nomatch h), fun hc hf hn => ?_⟩
    rcases C98_resolution hc hf hn hv hg with ⟨w, h1⟩ | ⟨q, k, h1⟩
    · cases h1
    · cases h1
      rcases gathered_safe hv hg with h2 | ⟨q', k', h2, hb⟩
      · cases h2
      · cases h2
        exact ⟨_, _, rfl, hb⟩
  · exact absurd hg (not_gathered hv D)

/-! ### Concrete links -/

/-- a file that is no library -/
def junkPath : Path := ⟨b!"libjunk.so", some b!"libjunk.so"⟩

/-- two objects that can be linked, a file that is no ELF file, and the name of a file that is not there -/
def junkEnv : Env := tableEnv (pairFiles ++ [(junkPath, b!"junk")]) pairElfs []

def junkLinker (objs libs : List Path) : Linker :=
  { options := { Options.default with sharedLibs := libs.map fun p => (p, false) }, objects := objs, archives := [] }

/-- as a library the damaged file makes the linker crash -/
example : link junkEnv (junkLinker [mainPath, calleePath] [junkPath]) LinkSched.id 5 = some (.error .panic) := by
  have h : (match link junkEnv (junkLinker [mainPath, calleePath] [junkPath]).objectsAlone LinkSched.id 5 with | some (.ok _) => true | _ => false) = true := by
    decide +kernel
  split at h
  · next file h1 => exact C145_library_violated (p := junkPath) rfl rfl rfl h1
  · cases h

/-- as an object it is reported -/
example : Damaged junkEnv (junkLinker [mainPath, junkPath] []) junkPath ∧
    (link junkEnv (junkLinker [mainPath, junkPath] []) LinkSched.id 5).map (fun r => match r with | .error e => decide (e = .err junkPath .input) | _ => false) = some true :=
  ⟨.object (d := b!"junk") (by simp [junkLinker]) rfl rfl, by decide +kernel⟩

/-- and so is a library that is not there -/
example : Damaged junkEnv (junkLinker [mainPath] [libPath]) libPath ∧
    (link junkEnv (junkLinker [mainPath] [libPath]) LinkSched.id 5).map (fun r => match r with | .error e => decide (e = .err libPath .input) | _ => false) = some true :=
  ⟨.missing (.inr (.inl (by simp [junkLinker]))) (by decide), by decide +kernel⟩

end Linker
end Dld
