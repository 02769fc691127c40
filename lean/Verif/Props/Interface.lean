import Verif.Spec.Interface
import Verif.Lemmas.Reached
import Verif.Props.CompleteAr
/-! # The executable depends on libraries only through what they offer (C154) -/
namespace Dld
open Writer Spec StringTable

namespace Linker
variable {env env' : Env} {l : Linker} {A : Name → Prop} {w w' : Writer}

theorem addDynSymbol_offered {s s' : Sym} (h1 : s.st_info = s'.st_info) (h2 : s.st_other = s'.st_other) (h3 : s.st_size = s'.st_size) (w : Writer) (n : Name)
    (p : Path) : w.addDynSymbol s n p = w.addDynSymbol s' n p := by
  cases s; cases s'
  simp only at h1 h2 h3
  subst h1 h2 h3
  rfl

/-- taking a symbol with these properties from a library -/
def takeOffer (path : Path) (n : Name) (st : Writer × Bool) (o : Nat × Nat × Nat) : M (Writer × Bool) := do
  let (w, _) ← st.1.addDynSymbol { st_info := o.1, st_other := o.2.1, st_size := o.2.2 } n path
  let file ← unwrap path.file
  .ok (w.addNeeded file, true)

theorem matchDynsym_offers {e : ElfFile} (path : Path) (n : Name) (l : List Sym) (h : ∀ s ∈ l, (e.dynName s.st_name).isSome) (st : Writer × Bool) :
    foldM' (matchDynsym e path n) st l =
      foldM' (takeOffer path n) st ((l.filter fun s => e.dynName s.st_name == some n).map fun s => (s.st_info, s.st_other, s.st_size)) := by
  induction l generalizing st with
  | nil => rfl
  | cons s l ih =>
    replace ih := ih fun s hs => h s (List.mem_cons_of_mem _ hs)
    obtain ⟨m, hm⟩ := Option.isSome_iff_exists.1 (h s List.mem_cons_self)
    rw [foldM'_cons]
    by_cases c : n = m
    · subst c
      rw [List.filter_cons_of_pos (by simp [hm]), List.map_cons, foldM'_cons]
      have : matchDynsym e path n st s = takeOffer path n st (s.st_info, s.st_other, s.st_size) := by
        unfold matchDynsym takeOffer
        simp only [hm, orErr, ok_bind, if_pos]
        rw [addDynSymbol_offered (s := s) (s' := { st_info := s.st_info, st_other := s.st_other, st_size := s.st_size }) rfl rfl rfl]
      rw [this]
      congr 1
      funext st
      exact ih st
    · rw [List.filter_cons_of_neg (by simp [hm, Ne.symm c])]
      have : matchDynsym e path n st s = .ok st := by
        unfold matchDynsym
        simp only [hm, orErr, ok_bind, if_neg c]
      rw [this]
      exact ih st

theorem addDynSymbol_symstr {s : Sym} {n : Name} {p : Path} {r : SymbolRef} (h : w.addDynSymbol s n p = .ok (w', r)) : w'.symstr = w.symstr := by
  unfold addDynSymbol at h
  simp only at h
  split at h
  · cases h
  · split at h
    · cases h; rfl
    · split at h
      · cases h
      · cases h; rfl

theorem matchDynsym_symstr {e : ElfFile} {p : Path} {n : Name} : ∀ {l : List Sym} {st st' : Writer × Bool}, foldM' (matchDynsym e p n) st l = .ok st' →
    st'.1.symstr = st.1.symstr := by
  intro l
  induction l with
  | nil => intro st st' h; cases h; rfl
  | cons s l ih =>
    intro st st' h
    rw [foldM'_cons, bind_ok] at h
    obtain ⟨st1, h1, h2⟩ := h
    rw [ih h2]
    simp only [matchDynsym, bind_ok] at h1
    obtain ⟨inner, _, h1⟩ := h1
    split at h1
    · simp only [bind_ok] at h1
      obtain ⟨⟨x1, x2⟩, h3, f, _, h5⟩ := h1
      cases h5
      exact addDynSymbol_symstr (w' := x1) h3
    · cases h1; rfl

theorem searchLibEntry_symstr {e : ElfFile} {p : Path} : ∀ {rs : List SymbolRef} {st st' : Writer × List SymbolRef},
    foldM' (searchLibEntry e p) st rs = .ok st' → st'.1.symstr = st.1.symstr := by
  intro rs
  induction rs with
  | nil => intro st st' h; cases h; rfl
  | cons r rs ih =>
    intro st st' h
    rw [foldM'_cons, bind_ok] at h
    obtain ⟨st1, h1, h2⟩ := h
    rw [ih h2]
    simp only [searchLibEntry, bind_ok] at h1
    obtain ⟨o, _, h1⟩ := h1
    cases o with
    | none => cases h1; rfl
    | some n =>
      simp only [bind_ok] at h1
      obtain ⟨x, h3, h4⟩ := h1
      cases h4
      exact matchDynsym_symstr h3

theorem symbolName_symstr (h : w'.symstr = w.symstr) (r : SymbolRef) : w'.symbolName r = w.symbolName r := by
  cases r with
  | named n => simp only [symbolName, h]
  | «section» a b => rfl

/-- one library that offers the same -/
theorem searchLibEntry_offers {e e' : ElfFile} (hn : e.NamedDynsyms) (hn' : e'.NamedDynsyms) (ho : ∀ n, A n → e'.offers n = e.offers n) (p : Path) :
    ∀ {rs : List SymbolRef} {st : Writer × List SymbolRef}, (∀ r ∈ rs, ∀ n, st.1.symbolName r = .ok (some n) → A n) →
    foldM' (searchLibEntry e' p) st rs = foldM' (searchLibEntry e p) st rs := by
  intro rs
  induction rs with
  | nil => intro st _; rfl
  | cons r rs ih =>
    intro st hA
    have hstep : searchLibEntry e' p st r = searchLibEntry e p st r := by
      unfold searchLibEntry
      cases hr : st.1.symbolName r with
      | error x => rfl
      | ok o =>
        cases o with
        | none => rfl
        | some n =>
          simp only [ok_bind]
          rw [matchDynsym_offers p n _ hn', matchDynsym_offers p n _ hn]
          have := ho n (hA r List.mem_cons_self n hr)
          unfold ElfFile.offers at this
          rw [this]
    rw [foldM'_cons, foldM'_cons, hstep]
    cases h1 : searchLibEntry e p st r with
    | error x => rfl
    | ok st1 =>
      have hs : st1.1.symstr = st.1.symstr := searchLibEntry_symstr (rs := [r]) (by rw [foldM'_cons, h1]; rfl)
      exact ih fun r hr n hn => hA r (List.mem_cons_of_mem _ hr) n (by rw [← symbolName_symstr hs]; exact hn)

/-- the search in the libraries -/
theorem searchLibs_offers (h : SameOffers env env' l A) {order : Nat → List SymbolRef → List SymbolRef} (hp : ∀ i l, (order i l).Perm l) :
    ∀ (ps : List Path) (k : Nat), (∀ p ∈ ps, p ∈ l.options.sharedLibs.map (·.1)) → ∀ (w : Writer) (und : List SymbolRef),
    (∀ r ∈ und, ∀ n, w.symbolName r = .ok (some n) → A n) →
    foldM' (searchLib env' order) (w, und) (ps.zipIdx k) = foldM' (searchLib env order) (w, und) (ps.zipIdx k) := by
  intro ps
  induction ps with
  | nil => intro k _ w und _; rfl
  | cons p ps ih =>
    intro k hl w und hA
    rw [List.zipIdx_cons, foldM'_cons, foldM'_cons]
    have hstep : searchLib env' order (w, und) (p, k) = searchLib env order (w, und) (p, k) := by
      rcases h.libs p (hl p List.mem_cons_self) with hr | ⟨d, d', e, e', h1, h2, h3, h4, h5, h6, h7⟩
      · simp only [searchLib, hr, h.parser]
      · simp only [searchLib, h1, h2, orErr, ok_bind, h3, h4, unwrap]
        rw [searchLibEntry_offers h5 h6 h7 p fun r hr n hn => hA r ((hp k und).mem_iff.1 hr) n hn]
    rw [hstep]
    cases hx : searchLib env order (w, und) (p, k) with
    | error x => rfl
    | ok st =>
      obtain ⟨w1, u1⟩ := st
      simp only [searchLib, bind_ok] at hx
      obtain ⟨d, _, e, _, x, h3, h4⟩ := hx
      cases h4
      have hs : x.1.symstr = w.symstr := searchLibEntry_symstr h3
      exact ih (k + 1) (fun p hp => hl p (List.mem_cons_of_mem _ hp)) _ _ fun r hr n hn =>
        hA r (List.mem_filter.1 hr).1 n (by rw [← symbolName_symstr hs]; exact hn)

theorem processArchives_offers (h : SameOffers env env' l A) {sched : LinkSched} (hv : sched.Valid) (round : Nat) (und : List SymbolRef) (w : Writer) :
    processArchives env' l sched round und w = processArchives env l sched round und w := by
  unfold processArchives
  refine foldM'_congr fun st x hx => ?_
  obtain ⟨p, i⟩ := x
  have hp : p ∈ l.archives := (hv.archives _).mem_iff.1 (List.mem_of_getElem? (List.mem_zipIdx_iff_getElem?.1 hx))
  have hm : ∀ ar, linkMember env' p ar = linkMember env p ar := by
    intro ar
    funext w m
    unfold linkMember toElfObject
    simp only [h.parser]
  simp only [searchArchive, h.files p (.inr hp), h.parserAr, hm]

theorem loadAll_offers (h : SameOffers env env' l A) (w : Writer) : loadAll env' l w = loadAll env l w := by
  have hr : ∀ ps : List Path, (∀ p ∈ ps, p ∈ l.objects) → readAll env' ps = readAll env ps := by
    intro ps
    induction ps with
    | nil => intro _; rfl
    | cons p ps ih =>
      intro hp
      unfold readAll
      rw [h.files p (.inl (hp p (by simp))), ih fun q hq => hp q (by simp [hq])]
  unfold loadAll
  rw [hr _ fun _ h => h]
  have : loadObjects env' = loadObjects env := by
    funext st e
    unfold loadObjects toElfObject
    rw [h.parser]
  rw [this]

theorem resolveLoop_offers {sched : LinkSched} (hv : sched.Valid) (h : SameOffers env env' l fun n => AnyNeeds env l n ∧ ¬ DefinedGlobally env l n)
    (hn : NamesSmall env l) (hread : ∀ p ∈ l.objects, ∃ d e, env.read p = some d ∧ env.parseElf d = some e) :
    ∀ (fuel round : Nat) (members : List Loaded) (log : List Call) (w : Writer), State env l (Unmet env l sched.symIter) members log w →
    resolveLoop env' l sched fuel round (w.undefinedSymbols sched.symIter) w = resolveLoop env l sched fuel round (w.undefinedSymbols sched.symIter) w
  | 0, _, _, _, _, _ => rfl
  | fuel + 1, round, members, log, w, hS => by
    have hR := hS.round hv.toSched.symIter
    have hround : resolveRound env' l sched round (w.undefinedSymbols sched.symIter) w = resolveRound env l sched round (w.undefinedSymbols sched.symIter) w := by
      unfold resolveRound findInLibs
      rw [searchLibs_offers h (fun i l => hv.undefLib round i l) _ 0 (fun p hp => hp) w _ fun r hr n hname => by
        obtain ⟨n', e, _, h2, _⟩ := hR.name hS (List.prefix_refl _) hr hname
        cases e
        exact asked_in_round hv hn hread hS h2]
      simp only [processArchives_offers h hv]
    rw [resolveLoop, resolveLoop, hround]
    cases hx : resolveRound env l sched round (w.undefinedSymbols sched.symIter) w with
    | error e => rfl
    | ok st =>
      obtain ⟨w1, cnt⟩ := st
      simp only []
      split
      · rfl
      · obtain ⟨new, xs, b1, _⟩ := resolveRound_calls hv hS hx
        exact resolveLoop_offers hv h hn hread fuel (round + 1) _ _ _ b1

/-- **C154.** Changing a shared library, without changing the type, binding, visibility and size of the symbols in it that an input needs and no object defines,
does not change the outcome of the link: neither the bytes of the executable nor the error. -/
theorem C154_interface {sched : LinkSched} (hv : sched.Valid) (h : SameOffers env env' l fun n => AnyNeeds env l n ∧ ¬ DefinedGlobally env l n)
    (hn : NamesSmall env l) (fuel : Nat) : link env' l sched fuel = link env l sched fuel := by
  rw [link_eq, link_eq]
  congr 1
  unfold gathered
  cases h0 : Writer.new l.options with
  | error e => rfl
  | ok w =>
    simp only [loadAll_offers h]
    cases h1 : loadAll env l w with
    | error e => rfl
    | ok w1 =>
      obtain ⟨log, a1, a2⟩ := loadAll_calls (N := Unmet env l sched.symIter) h0 h1
      exact resolveLoop_offers hv h hn a2 fuel 0 _ _ _ a1

/-! ### A new version of a library -/

/-- the library of the demonstration with `f` elsewhere, and with one more symbol before it -/
def newerElf : ElfFile :=
  { libElf with
    dynsyms := [{}, { demoSym STT_FUNC 7 0x3000 4 with st_name := 5 }, { libElf.dynsyms.getD 1 {} with st_name := 9, st_shndx := 7, st_value := 0x2340 }]
    dynName := AMap.get? [(0, []), (5, b!"h"), (9, b!"f")] }

def versionElfs : List (Bytes × ElfFile) :=
  [(List.replicate 16 0x90, mainElf), (b!"library", libElf), (b!"newer library", newerElf), (List.replicate 8 0xc3, memberElf)]
def versionAr : List (Bytes × ArFile) := [(b!"archive", { index := [(b!"g", b!"g.o")], get := AMap.get? [(b!"g.o", List.replicate 8 0xc3)] })]

/-- the demonstration with the library in one of the versions -/
def versionEnv (lib : Bytes) : Env := tableEnv [(mainPath, List.replicate 16 0x90), (libPath, lib), (arPath, b!"archive")] versionElfs versionAr

theorem version_needs {lib : Bytes} {n : Name} (h : AnyNeeds (versionEnv lib) demoLinker n) : n = b!"f" ∨ n = b!"g" := by
  obtain ⟨p, d, j, s, ⟨e, hi, hj, hn, _⟩, h0, hb⟩ := h
  have he := (hi.isInput).of_table
  simp only [versionElfs, List.map_cons, List.map_nil, List.mem_cons, List.not_mem_nil, or_false] at he
  have key : ∀ e ∈ [mainElf, libElf, newerElf, memberElf], ∀ s ∈ e.syms, s.st_shndx = 0 → (s.st_info / 16 = 1 ∨ s.st_info / 16 = 2) →
      e.symName s.st_name = some b!"f" ∨ e.symName s.st_name = some b!"g" := by decide +kernel
  rcases key e (by simpa using he) s (List.mem_of_getElem? hj) h0 hb with h | h
  · exact .inl (Option.some.inj (hn.symm.trans h))
  · exact .inr (Option.some.inj (hn.symm.trans h))

/-- The versions of the library differ, the link succeeds, and its outcome is the same with both. -/
example : links (versionEnv b!"library") demoLinker LinkSched.id 5 (fun _ _ _ _ => true) = true ∧
    ∀ (sched : LinkSched) (fuel : Nat), sched.Valid →
      link (versionEnv b!"newer library") demoLinker sched fuel = link (versionEnv b!"library") demoLinker sched fuel := by
  refine ⟨by decide +kernel, fun sched fuel hv => 
    C154_interface (env := versionEnv b!"library") (env' := versionEnv b!"newer library") (l := demoLinker) hv ⟨fun _ => rfl, fun _ => rfl, ?_, ?_⟩
      (NamesSmall.of_table (elfs := versionElfs) (by decide +kernel)) fuel⟩
  · intro p hp
    have : p = mainPath ∨ p = arPath := by simpa [demoLinker] using hp
    rcases this with rfl | rfl <;> decide +kernel
  · intro p hp
    have : p = libPath := by simpa [demoLinker] using hp
    subst this
    refine .inr ⟨b!"library", b!"newer library", libElf, newerElf, by decide +kernel, by decide +kernel, rfl, rfl, ?_, ?_, fun n hA => ?_⟩
    · unfold ElfFile.NamedDynsyms; decide +kernel
    · unfold ElfFile.NamedDynsyms; decide +kernel
    · rcases version_needs hA.1 with rfl | rfl <;> decide +kernel

end Linker
end Dld
