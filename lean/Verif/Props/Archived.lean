import Verif.Spec.Archived
import Verif.Props.Shuffled
/-! # Objects that are put into an archive: C159 -/
namespace Dld
open Writer Spec StringTable

section
variable {env : Env} {l l' : Linker} {p : Path} {packed : List Path}

theorem Archived.options (h : Archived env l l' p packed) : l'.options = l.options := by rw [h.rest]
theorem Archived.left (h : Archived env l l' p packed) {q : Path} (hq : q ∈ l'.objects) : q ∈ l.objects := h.objects.mem_iff.2 (List.mem_append_left _ hq)
theorem Archived.right (h : Archived env l l' p packed) {q : Path} (hq : q ∈ packed) : q ∈ l.objects := h.objects.mem_iff.2 (List.mem_append_right _ hq)

/-- what is read of the second command line was an object of the first one -/
theorem Archived.at (h : Archived env l l' p packed) {q : Path} {d : Bytes} {e : ElfFile} (hi : InputAt env l' q d e) :
    (q ∈ l'.objects ∧ InputAt env l q d e) ∨ (q = p ∧ ∃ o ∈ packed, InputAt env l o d e) := by
  cases hi with
  | object hp hd he ho => exact .inl ⟨hp, .object (h.left hp) hd he ho⟩
  | member hp hd ha hn hm he ho =>
    rw [h.after] at hp
    cases List.mem_singleton.1 hp
    obtain ⟨data, ar, h1, h2, h3⟩ := h.archive
    rw [h1] at hd; cases hd
    rw [h2] at ha; cases ha
    obtain ⟨o, ho', hr⟩ := h3.members _ _ hm
    exact .inr ⟨rfl, o, ho', .object (h.right ho') hr he ho⟩

theorem Archived.at' (h : Archived env l l' p packed) {q : Path} {d : Bytes} {e : ElfFile} (hi : InputAt env l' q d e) : ∃ o, InputAt env l o d e := by
  rcases h.at hi with ⟨_, h⟩ | ⟨_, o, _, h⟩
  · exact ⟨_, h⟩
  · exact ⟨_, h⟩

theorem Archived.input (h : Archived env l l' p packed) {e : ElfFile} (hi : IsInput env l' e) : IsInput env l e := by
  cases hi with
  | object hp hd he ho => exact .object (h.left hp) hd he ho
  | member hp hd ha hm he ho =>
    rw [h.after] at hp
    cases List.mem_singleton.1 hp
    obtain ⟨data, ar, h1, h2, h3⟩ := h.archive
    rw [h1] at hd; cases hd
    rw [h2] at ha; cases ha
    obtain ⟨o, ho', hr⟩ := h3.members _ _ hm
    exact .object (h.right ho') hr he ho

theorem Archived.clean (h : Archived env l l' p packed) (hc : CleanFiles env l) : CleanFiles env l' := by
  refine ⟨fun e sh n he => hc.names e sh n (h.input he), fun e sh he => hc.first e sh (h.input he), fun e sh he => hc.unnamed e sh (h.input he),
    fun e sh e' sh' n he hs he' => hc.nobits e sh e' sh' n (h.input he) hs (h.input he'), fun e s n he => hc.symbols e s n (h.input he), ?_⟩
  intro p s n hl
  refine hc.dynsyms p s n ?_
  unfold LibraryHas at hl ⊢
  rwa [← h.options]

theorem Archived.sound (h : Archived env l l' p packed) (hc : SoundFiles env l) : SoundFiles env l' := by
  refine ⟨by rw [h.options]; exact hc.loader, fun p d e sh hi => ?_, fun p d e sh hi => ?_, fun p d e s n hi => ?_, fun p d e k pos j rel hi => ?_, ?_, ?_⟩
  · obtain ⟨o, hi⟩ := h.at' hi; exact hc.inside o d e sh hi
  · obtain ⟨o, hi⟩ := h.at' hi; exact hc.unnamed o d e sh hi
  · obtain ⟨o, hi⟩ := h.at' hi; exact hc.nameless o d e s n hi
  · obtain ⟨o, hi⟩ := h.at' hi; exact hc.symbols o d e k pos j rel hi
  · rw [h.options]; exact hc.libraries
  · intro q hq data ar n m hd ha hn
    rw [h.after] at hq
    cases List.mem_singleton.1 hq
    obtain ⟨data', ar', h1, h2, h3⟩ := h.archive
    rw [h1] at hd; cases hd
    rw [h2] at ha; cases ha
    obtain ⟨d, e, hg, he, ho, _⟩ := h3.index n m hn
    exact ⟨d, hg, fun e' he' => by rw [he] at he'; cases he'; exact ho⟩

theorem Archived.relocs (h : Archived env l l' p packed) (hc : SoundRelocs env l) : SoundRelocs env l' := by
  refine ⟨fun p d e k pos j rel hi => ?_, fun p d e k pos j rel sh hi => ?_, fun p d e k pos j rel s n hi hr ht hs hn => ?_, fun p d e hi => ?_,
    fun p d e k pos j rel sh n hi hr hs hn p' d' e' sh' hi' => ?_⟩
  · obtain ⟨o, hi⟩ := h.at' hi; exact hc.type o d e k pos j rel hi
  · obtain ⟨o, hi⟩ := h.at' hi; exact hc.home o d e k pos j rel sh hi
  · obtain ⟨o, hi⟩ := h.at' hi
    obtain ⟨h1, h2⟩ := hc.tls o d e k pos j rel s n hi hr ht hs hn
    refine ⟨h1, fun p d e s hi => ?_⟩
    obtain ⟨o, hi⟩ := h.at' hi
    exact h2 o d e s hi
  · obtain ⟨o, hi⟩ := h.at' hi; exact hc.apart o d e hi
  · obtain ⟨o, hi⟩ := h.at' hi
    obtain ⟨o', hi'⟩ := h.at' hi'
    exact hc.loaded o d e k pos j rel sh n hi hr hs hn o' d' e' sh' hi'

theorem Archived.names (h : Archived env l l' p packed) (hn : NamesSmall env l) : NamesSmall env l' := by
  intro ns hnd hall
  refine hn ns hnd fun n hm => (hall n hm).imp_right ?_
  rintro ⟨p, d, e, s, hi, hs⟩
  obtain ⟨o, hi⟩ := h.at' hi
  exact ⟨o, d, e, s, hi, hs⟩

theorem Archived.flags (h : Archived env l l' p packed) {F : List Nat} (hF : FewFlags env l F) : FewFlags env l' F := by
  refine ⟨fun p d e sh n hi => ?_, hF.few⟩
  obtain ⟨o, hi⟩ := h.at' hi
  exact hF.flags o d e sh n hi

theorem Archived.readable (h : Archived env l l' p packed) (hR : ReadableFiles env l) : ReadableFiles env l' := by
  refine ⟨fun p hp => hR.objects p (h.left hp), by rw [h.options]; exact hR.libraries, ?_, fun p d e sh hi => ?_, fun p d e s hi => ?_,
    fun p d e k pos j rel hi => ?_⟩
  · intro q hq
    rw [h.after] at hq
    cases List.mem_singleton.1 hq
    obtain ⟨data, ar, h1, h2, h3⟩ := h.archive
    refine ⟨data, ar, h1, h2, fun n m b hn hm => ?_⟩
    obtain ⟨d, e, hg, he, _⟩ := h3.index n m hn
    rw [hm] at hg; cases hg
    rw [he]; rfl
  · obtain ⟨o, hi⟩ := h.at' hi; exact hR.sections o d e sh hi
  · obtain ⟨o, hi⟩ := h.at' hi; exact hR.symbols o d e s hi
  · obtain ⟨o, hi⟩ := h.at' hi; exact hR.relocs o d e k pos j rel hi

theorem Archived.nodup (h : Archived env l l' p packed) (hD : l.objects.Nodup) : l'.objects.Nodup ∧ ∀ q ∈ l'.objects, q ∉ packed := by
  have := List.nodup_append.1 (h.objects.nodup_iff.1 hD)
  exact ⟨this.1, fun q h1 h2 => this.2.2 q h1 q h2 rfl⟩

theorem Archived.once (h : Archived env l l' p packed) (hD : DefinedOnce env l) : DefinedOnce env l' := by
  obtain ⟨n1, n2⟩ := h.nodup hD.files
  refine ⟨n1, ?_⟩
  rintro n q d j s q' d' j' s' ⟨e, i1, r1⟩ a b ⟨e', i2, r2⟩ c
  rcases h.at i1 with ⟨k1, i1'⟩ | ⟨q1, o, k1, i1'⟩ <;> rcases h.at i2 with ⟨k2, i2'⟩ | ⟨q2, o', k2, i2'⟩
  · exact hD.names n _ d j s _ d' j' s' ⟨e, i1', r1⟩ a b ⟨e', i2', r2⟩ c
  · obtain ⟨e0, _⟩ := hD.names n _ d j s _ d' j' s' ⟨e, i1', r1⟩ a b ⟨e', i2', r2⟩ c
    rw [← e0] at k1
    exact absurd k2 (n2 _ k1)
  · obtain ⟨e0, _⟩ := hD.names n _ d j s _ d' j' s' ⟨e, i1', r1⟩ a b ⟨e', i2', r2⟩ c
    rw [e0] at k2
    exact absurd k1 (n2 _ k2)
  · exact ⟨q2.trans q1.symm, (hD.names n _ d j s _ d' j' s' ⟨e, i1', r1⟩ a b ⟨e', i2', r2⟩ c).2⟩

theorem Archived.indexes (h : Archived env l l' p packed) : GlobalIndexes env l' := by
  obtain ⟨data', ar', h1, h2, h3⟩ := h.archive
  refine ⟨?_, ?_⟩
  · intro q hq data ar hd ha n m d hn hm
    rw [h.after] at hq
    cases List.mem_singleton.1 hq
    rw [h1] at hd; cases hd
    rw [h2] at ha; cases ha
    obtain ⟨d', e, hg, he, ho, hx⟩ := h3.index n m hn
    rw [hm] at hg; cases hg
    exact ⟨e, he, ho, hx⟩
  · intro q hq data ar hd ha
    rw [h.after] at hq
    cases List.mem_singleton.1 hq
    rw [h1] at hd; cases hd
    rw [h2] at ha; cases ha
    exact fun n m n' m' d _ _ => h3.once m m' d

/-- a sum over a list without repetitions of which each entry has a counterpart of its own in another list -/
theorem sum_le_of_matched {α β : Type} [DecidableEq β] {f : α → Nat} {g : β → Nat} {R : α → β → Prop} (hR : ∀ a b, R a b → f a = g b) :
    ∀ (xs : List α) (ys : List β), xs.Nodup → (∀ a ∈ xs, f a = 0 ∨ ∃ b ∈ ys, R a b) → (∀ a ∈ xs, ∀ a' ∈ xs, ∀ b, R a b → R a' b → a = a') →
      (xs.map f).sum ≤ (ys.map g).sum
  | [], _, _, _, _ => by simp
  | x :: xs, ys, hd, hm, hi => by
    obtain ⟨hx, hd⟩ := List.nodup_cons.1 hd
    rw [List.map_cons, List.sum_cons]
    rcases hm x (by simp) with h0 | ⟨b, hb, hxb⟩
    · rw [h0, Nat.zero_add]
      exact sum_le_of_matched hR xs ys hd (fun a ha => hm a (by simp [ha])) fun a ha a' ha' => hi a (by simp [ha]) a' (by simp [ha'])
    · have hp := ((List.perm_cons_erase hb).map g).sum_nat
      rw [List.map_cons, List.sum_cons] at hp
      rw [hp, hR x b hxb]
      refine Nat.add_le_add_left (sum_le_of_matched hR xs (ys.erase b) hd (fun a ha => ?_) fun a ha a' ha' => hi a (by simp [ha]) a' (by simp [ha'])) _
      rcases hm a (by simp [ha]) with h0 | ⟨b', hb', hab⟩
      · exact .inl h0
      · refine .inr ⟨b', (List.mem_erase_of_ne ?_).2 hb', hab⟩
        intro e
        subst e
        exact hx (hi x (by simp) a (by simp [ha]) b' hxb hab ▸ ha)

theorem nodup_eraseDups {α : Type} [BEq α] [LawfulBEq α] (xs : List α) : xs.eraseDups.Nodup := by
  generalize hk : xs.length = k
  induction k using Nat.strongRecOn generalizing xs with
  | _ k ih =>
    cases xs with
    | nil => simp
    | cons a as =>
      rw [List.eraseDups_cons, List.nodup_cons]
      refine ⟨?_, ih (as.filter fun b => !b == a).length ?_ _ rfl⟩
      · rw [List.mem_eraseDups, List.mem_filter]
        simp
      · have := List.length_filter_le (fun b => !b == a) as
        rw [List.length_cons] at hk
        omega

theorem sum_filterMap {α β : Type} (g : α → Option β) (f : β → Nat) : ∀ xs : List α, ((xs.filterMap g).map f).sum = (xs.map fun x => ((g x).map f).getD 0).sum
  | [] => rfl
  | x :: xs => by
    rw [List.filterMap_cons, List.map_cons, List.sum_cons, ← sum_filterMap g f xs]
    cases g x <;> simp

theorem Archived.member (h : Archived env l l' p packed) {x : Loaded} (hx : x ∈ inputsOf env l') : ∃ y ∈ objectsOf env l, y.elf = x.elf := by
  rcases List.mem_append.1 hx with hx | hx
  · have : x.elf ∈ (objectsOf env l').map (·.elf) := List.mem_map_of_mem hx
    rw [objectsOf_elf] at this
    obtain ⟨q, hq, e⟩ := List.mem_filterMap.1 this
    refine List.mem_map.1 ?_
    rw [objectsOf_elf]
    exact List.mem_filterMap.2 ⟨q, h.left hq, e⟩
  · obtain ⟨data, ar, h1, h2, h3⟩ := h.archive
    unfold membersOf at hx
    rw [h.after] at hx
    simp only [List.flatMap_cons, List.flatMap_nil, List.append_nil, h1, h2, Option.bind_some, Option.map_some, Option.getD_some, List.mem_filterMap] at hx
    obtain ⟨m, _, hx⟩ := hx
    cases hg : ar.get m with
    | none => rw [hg] at hx; cases hx
    | some d =>
      rw [hg, Option.bind_some] at hx
      cases he : env.parseElf d with
      | none => rw [he] at hx; cases hx
      | some e =>
        rw [he, Option.bind_some] at hx
        split at hx
        next ho =>
          cases hx
          obtain ⟨o, ho', hr⟩ := h3.members _ _ hg
          exact Linker.object_elf (h.right ho') hr he ho
        · cases hx

theorem Archived.sums (h : Archived env l l' p packed) (f : ElfFile → Nat) :
    ((inputsOf env l').map fun x => f x.elf).sum ≤ ((objectsOf env l).map fun x => f x.elf).sum := by
  obtain ⟨data, ar, h1, h2, h3⟩ := h.archive
  have hobj : ∀ k : Linker, ((objectsOf env k).map fun x => f x.elf).sum =
      (k.objects.map fun q => (((env.read q).bind fun d => (env.parseElf d).bind fun e => if e.isObjectFile then some e else none).map f).getD 0).sum := by
    intro k
    have : ((objectsOf env k).map fun x => f x.elf) = ((objectsOf env k).map (·.elf)).map f := by rw [List.map_map]; rfl
    rw [this, objectsOf_elf, sum_filterMap]
  unfold inputsOf
  rw [List.map_append, List.sum_append, hobj, hobj, (h.objects.map _).sum_nat, List.map_append, List.sum_append]
  refine Nat.add_le_add_left ?_ _
  unfold membersOf
  rw [h.after]
  simp only [List.flatMap_cons, List.flatMap_nil, List.append_nil, h1, h2, Option.bind_some, Option.map_some, Option.getD_some]
  rw [sum_filterMap]
  refine sum_le_of_matched (R := fun m o => ∃ d, ar.get m = some d ∧ env.read o = some d) ?_ _ _ (nodup_eraseDups _) ?_ ?_
  · rintro m o ⟨d, hg, hr⟩
    simp only [hg, hr, Option.bind_some]
    cases env.parseElf d with
    | none => rfl
    | some e =>
      simp only [Option.bind_some]
      split <;> rfl
  · intro m _
    cases hg : ar.get m with
    | none => exact .inl rfl
    | some d =>
      obtain ⟨o, ho, hr⟩ := h3.members _ _ hg
      exact .inr ⟨o, ho, d, rfl, hr⟩
  · rintro m _ m' _ o ⟨d, hg, hr⟩ ⟨d', hg', hr'⟩
    rw [hr] at hr'; cases hr'
    exact h3.once m m' d hg hg'

theorem Archived.small (h : Archived env l l' p packed) {V K : Nat} (hS : SmallProgram env l V K) : SmallWhole env l' V K := by
  refine ⟨?_, ?_, ⟨hS.definitions.1, fun n => ?_⟩, ?_⟩
  · intro x hx
    obtain ⟨y, hy, e⟩ := h.member hx
    rw [← e]; exact hS.values y hy
  · intro x hx
    obtain ⟨y, hy, e⟩ := h.member hx
    rw [← e]; exact hS.addends y hy
  · exact Nat.le_trans (h.sums fun e => e.definitions n) (hS.definitions.2 n)
  · have h1 := h.sums ElfFile.cost
    have h2 := hS.small
    rw [h.options]
    refine Nat.lt_of_le_of_lt (Nat.mul_le_mul_left 4 (Nat.add_le_add_left (Nat.mul_le_mul_left (K + 5) ?_) V)) h2
    omega

end

namespace Linker
variable {env : Env} {l l' : Linker} {p : Path} {packed : List Path} {sched sched' : LinkSched} {fuel : Nat} {F : List Nat} {V K : Nat} {file : Bytes}

/-- **C159.** If objects and libraries link, then they also link when some of the objects are in an archive. -/
theorem C159_archived (hv : sched.Valid) (hv' : sched'.Valid) (hc : CleanFiles env l) (hf : SoundFiles env l) (hr : SoundRelocs env l) (hn : NamesSmall env l)
    (hF : FewFlags env l F) (S : SmallProgram env l V K) (hb : ∀ n, PlainBinds env l n) (hR : ReadableFiles env l)
    (hD : DefinedOnce env l) (hg : GlobalDefinitions env l) (hL : ∀ n ∈ linkerSymbols, AnyNeeds env l n → n = b!"_GLOBAL_OFFSET_TABLE_" ∨ ArrayBound env l' n)
    (hp : Archived env l l' p packed) (h : link env l sched fuel = some (.ok file)) :
    ∃ rounds file', ∀ fuel', rounds ≤ fuel' → link env l' sched' fuel' = some (.ok file') := by
  obtain ⟨loaded, log, w, h4, _, hall⟩ := needed_linked hv hc (program_tables hc hf hr hn hF hv hp.before S) h
  refine C140_whole_partial (hp.clean hc) (hp.sound hf) (hp.relocs hr) (hp.names hn) (hp.flags hF) hv' (hp.small S) (fun n e he => hb n e (hp.input he)) (hp.readable hR)
    (hp.once hD) hp.indexes (by rw [hp.after]; simp) ?_
  rintro n ⟨q, d, j, s, ⟨e, hi, hj, hsn, h3⟩, h0, hbind⟩
  obtain ⟨o, hi⟩ := hp.at' hi
  have hneed : AnyNeeds env l n := ⟨o, d, j, s, ⟨e, hi, hj, hsn, h3⟩, h0, hbind⟩
  by_cases hl : n ∈ linkerSymbols
  · rcases hL n hl hneed with h | h
    · exact .inl h
    · exact .inr (.inr (.inl (.inr h)))
  have hload : ∃ y ∈ loaded, y.elf = e := by
    cases hi with
    | object h1 h2 h3 h4' =>
      obtain ⟨x, hx, e⟩ := object_elf h1 h2 h3 h4'
      obtain ⟨ms, e', _⟩ := h4.objects
      exact ⟨x, by rw [e']; exact List.mem_append_left _ hx, e⟩
    | member h1 => rw [hp.before] at h1; cases h1
  obtain ⟨y, hy, rfl⟩ := hload
  rcases hall n s ⟨y, hy, List.mem_of_getElem? hj, hsn, h3⟩ h0 hbind (fun s' ⟨z, hz, hs', hn', _⟩ => hb n z.elf (h4.inputAt hz).isInput s' hs' hn') with
    rfl | ⟨x, _, i, sh, m, S', E, _, _, _, hm', hSE⟩ | ⟨q, s', hlib⟩ | ⟨s', ⟨z, hz, hs', hn', h3'⟩, h0'⟩
  · exact absurd hl (by decide)
  · exfalso
    simp only [arrayBounds, List.mem_cons, Prod.mk.injEq, List.not_mem_nil, or_false] at hm'
    rcases hm' with ⟨rfl, rfl, rfl⟩ | ⟨rfl, rfl, rfl⟩ <;> rcases hSE with rfl | rfl <;> exact hl (by decide)
  · refine .inr (.inr (.inr (.inl ⟨q, s', ?_⟩)))
    unfold LibraryHas
    rw [hp.options]; exact hlib
  · obtain ⟨j', hj'⟩ := List.getElem?_of_mem hs'
    have hzi := h4.inputAt hz
    have hzb := hg n hneed _ _ j' s' ⟨_, hzi, hj', hn', h3'⟩ h0'
    have hex : z.elf.exports n := ⟨s', hs', hn', h3', h0', hzb⟩
    generalize z.path = zp, z.data = zd at hzi
    cases hzi with
    | member h1 => rw [hp.before] at h1; cases h1
    | object h1 h2 h3 h4' =>
      rcases List.mem_append.1 (hp.objects.mem_iff.1 h1) with h1 | h1
      · obtain ⟨x, hx, e⟩ := object_elf h1 h2 h3 h4'
        exact .inr (.inl ⟨s', ⟨x, hx, by rw [e]; exact hs', by rw [e]; exact hn', h3'⟩, h0', hzb⟩)
      · obtain ⟨data, ar, a1, a2, a3⟩ := hp.archive
        obtain ⟨m, hm⟩ := Option.isSome_iff_exists.1 (a3.complete _ h1 _ _ n h2 h3 hex)
        exact .inr (.inr (.inr (.inr ⟨p, by rw [hp.after]; simp, data, ar, m, a1, a2, hm⟩)))

/-! ### The program of two objects and a library, with the second object in an archive -/

def packFiles : List (Path × Bytes) := trioFiles ++ [(arPath, b!"archive")]
def packEnv : Env := tableEnv packFiles trioElfs [(b!"archive", demoAr)]
def packLinker : Linker := { trioLinker with objects := [mainPath], archives := [arPath] }

theorem pack_archived : Archived packEnv trioLinker packLinker arPath [calleePath] := by
  have hr : packEnv.read arPath = some b!"archive" := by decide +kernel
  have hg : demoAr.get b!"g.o" = some (List.replicate 8 0xc3) := by decide +kernel
  have hc : packEnv.read calleePath = some (List.replicate 8 0xc3) := by decide +kernel
  have hi : ∀ {n m}, demoAr.memberOfSymbol n = some m → n = b!"g" ∧ m = b!"g.o" := by
    intro n m hn
    have := AMap.mem_of_get? hn
    simpa only [demoAr, List.mem_cons, List.not_mem_nil, or_false, Prod.mk.injEq] using this
  refine ⟨.refl _, rfl, rfl, rfl, b!"archive", demoAr, hr, rfl, ?_, ?_, ?_, ?_⟩
  · intro m d hm
    have := AMap.mem_of_get? hm
    simp only [List.mem_cons, List.not_mem_nil, or_false, Prod.mk.injEq] at this
    rw [this.2]
    exact ⟨calleePath, by simp, hc⟩
  · intro n m hn
    obtain ⟨rfl, rfl⟩ := hi hn
    exact ⟨_, memberElf, hg, rfl, rfl, { demoSym STT_FUNC 1 0 8 with st_name := 1 }, by decide, by decide, by decide, by decide, by decide⟩
  · rintro o ho d e n hd he ⟨s, hs, hn, _, h0, _⟩
    cases List.mem_singleton.1 ho
    rw [hc] at hd; cases hd
    have he' : packEnv.parseElf (List.replicate 8 0xc3) = some memberElf := rfl
    rw [he'] at he; cases he
    have := (by decide +kernel : ∀ s ∈ memberElf.syms, s.st_shndx ≠ 0 → memberElf.symName s.st_name = some b!"g") s hs h0
    rw [hn] at this; cases this; decide
  · intro m m' d hm hm'
    have h1 := AMap.mem_of_get? hm
    have h2 := AMap.mem_of_get? hm'
    simp only [List.mem_cons, List.not_mem_nil, or_false, Prod.mk.injEq] at h1 h2
    rw [h1.1, h2.1]

theorem pack_at {p : Path} {d : Bytes} {e : ElfFile} (hi : InputAt packEnv trioLinker p d e) :
    InputAt (tableEnv packFiles trioElfs []) { trioLinker with options := Options.default } p d e := by
  cases hi with
  | object a b c d => exact .object a b c d
  | member hp => cases hp

theorem pack_readable : ReadableFiles packEnv trioLinker := by
  have h : ReadableFiles (tableEnv packFiles trioElfs []) { trioLinker with options := Options.default } :=
    ReadableFiles.of_table rfl rfl (by decide +kernel) (by decide +kernel)
  refine ⟨h.objects, ?_, (fun p hp => nomatch hp), fun _ _ _ _ a => h.sections _ _ _ _ (pack_at a), fun _ _ _ _ a => h.symbols _ _ _ _ (pack_at a),
    fun _ _ _ _ _ _ _ a => h.relocs _ _ _ _ _ _ _ (pack_at a)⟩
  intro p hp
  have hp : p = libPath := by simpa [trioLinker] using hp
  subst hp
  exact ⟨b!"library", libElf, by decide, rfl, by decide⟩

theorem pack_once : DefinedOnce packEnv trioLinker := by
  have h : DefinedOnce (tableEnv packFiles trioElfs []) { trioLinker with options := Options.default } := DefinedOnce.of_table rfl (by decide) (by decide +kernel)
  refine ⟨h.files, ?_⟩
  rintro n p d j s p' d' j' s' ⟨e, i1, r1⟩ a b ⟨e', i2, r2⟩ c
  exact h.names n p d j s p' d' j' s' ⟨e, pack_at i1, r1⟩ a b ⟨e', pack_at i2, r2⟩ c

theorem pack_sound : SoundFiles packEnv trioLinker := by
  refine SoundFiles.of_table (by decide +kernel) (by decide) ?_ ?_
  · intro p hp
    have hp : p = libPath := by simpa [trioLinker] using hp
    subst hp
    refine ⟨by decide, fun d hd => ?_⟩
    have hd : some b!"library" = some d := by rw [← hd]; decide
    cases hd
    decide
  · intro p hp; cases hp

theorem pack_sym {p : Path} {d : Bytes} {j : Nat} {s : Sym} {n : Name} (h : InputSym packEnv trioLinker p d j s n) :
    ∃ x ∈ objectsOf packEnv trioLinker, s ∈ x.elf.syms ∧ x.elf.symName s.st_name = some n ∧ s.st_info % 16 ≠ 3 := by
  obtain ⟨e, hi, hj, hn, h3⟩ := h
  cases hi with
  | member hp => cases hp
  | object hp hd he ho =>
    obtain ⟨x, hx, e⟩ := object_elf hp hd he ho
    exact ⟨x, hx, by rw [e]; exact List.mem_of_getElem? hj, by rw [e]; exact hn, h3⟩

/-- the program links in every order in which the hash tables are visited -/
example (sched : LinkSched) (hv : sched.Valid) : ∃ rounds file, ∀ fuel, rounds ≤ fuel → link packEnv packLinker sched fuel = some (.ok file) := by
  have hc : CleanFiles packEnv trioLinker := CleanFiles.of_table (by decide +kernel)
  have h : links packEnv trioLinker LinkSched.id 5 (fun _ _ _ _ => true) = true := by decide +kernel
  obtain ⟨log, loaded, w, w', f, s, h1, _⟩ := LinkRun.of_links LinkSched.id_valid hc h
  have hall : ∀ x ∈ objectsOf packEnv trioLinker, ∀ s ∈ x.elf.syms, (s.st_shndx ≠ 0 → s.st_info / 16 = 1) ∧ ∀ n ∈ linkerSymbols, x.elf.symName s.st_name ≠ some n := by
    decide +kernel
  refine C159_archived (F := [0, 6]) (V := 100) (K := 1) LinkSched.id_valid hv hc pack_sound (SoundRelocs.of_table (by decide +kernel) (by decide +kernel))
    (NamesSmall.of_table (by decide +kernel)) (FewFlags.of_table (by decide +kernel) (by decide))
    ⟨by decide +kernel, by decide +kernel, ⟨by decide, trio_small.definitions.2⟩, by decide +kernel⟩ ?_ pack_readable
    pack_once ?_ ?_ pack_archived h1
  · intro n e he s hs _
    exact (by decide +kernel : ∀ e ∈ trioElfs.map (·.2), ∀ s ∈ e.syms, s.st_info / 16 ≤ 2) e he.of_table s hs
  · intro n _ p d j s hs h0
    obtain ⟨x, hx, h1, _⟩ := pack_sym hs
    exact (hall x hx s h1).1 h0
  · rintro n hn ⟨p, d, j, s, hs, _⟩
    obtain ⟨x, hx, h1, h2, _⟩ := pack_sym hs
    exact absurd h2 ((hall x hx s h1).2 n hn)

end Linker
end Dld
