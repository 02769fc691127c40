import Verif.Lemmas.StringTable
/-! # C03-C06: string tables -/
namespace Dld
namespace StringTable
open Spec

/-- The two ways a string table comes into being: `default` and `with_name`. -/
def start : Option Name → StringTable
  | none => default
  | some n => withName n

/-- the names in a fresh table -/
def startNames : Option Name → List Name
  | none => [[]]
  | some n => intern [[]] n

theorem holds_start (s : Option Name) : Holds (start s) (startNames s) := by
  cases s with
  | none => exact holds_default
  | some n => exact holds_withName n

end StringTable
open StringTable Spec

/-- **C03**: asking again for a name, however many other names came in between, gives the same
offset and index and reports the name as old; the first time it is new exactly when it was
neither requested before nor put there at creation; and another name never gets the same offset
or index. -/
theorem C03_interning_stable_injective (s : Option Name) (xs ys : List Name) (n : Name) :
    let first := ((start s).after xs |>.getOrCreate n).1
    let later := (start s).after (xs ++ n :: ys)
    ((later.getOrCreate n).1 = { index := first.index, offset := first.offset, new := false }) ∧
    (first.new = true ↔ n ∉ xs ∧ n ≠ [] ∧ s ≠ some n) ∧
    (∀ m, m ≠ n → (later.getOrCreate m).1.offset ≠ first.offset ∧
      (later.getOrCreate m).1.index ≠ first.index) := by
  intro first later
  have h1 : Holds ((start s).after xs) (internAll (startNames s) xs) := (holds_start s).after xs
  have h2 : Holds later (internAll (startNames s) (xs ++ n :: ys)) := (holds_start s).after _
  have hp : intern (internAll (startNames s) xs) n <+: internAll (startNames s) (xs ++ n :: ys) := by
    have : internAll (startNames s) (xs ++ n :: ys)
        = internAll (intern (internAll (startNames s) xs) n) ys := by
      simp [internAll, List.foldl_append]
    rw [this]; exact internAll_prefix _ _
  have hmem := mem_intern (internAll (startNames s) xs) n
  have hmem2 : n ∈ internAll (startNames s) (xs ++ n :: ys) := hp.subset hmem
  have he := h1.entry n
  have hidx := idxOf_prefix hp hmem
  have htake := take_idxOf_prefix hp hmem
  refine ⟨?_, ?_, ?_⟩
  · rw [h2.getOrCreate_mem hmem2, htake, hidx]
    show _ = ({ index := first.index, offset := first.offset, new := false } : Entry)
    rw [show first.index = _ from he.1, show first.offset = _ from he.2]
  · have hstart : n ∈ startNames s ↔ n = [] ∨ s = some n := by
      cases s with
      | none => simp [startNames]
      | some k =>
        by_cases hk : k = []
        · subst hk
          simp only [startNames, intern, List.mem_singleton, if_true, Option.some.injEq]
          constructor
          · exact .inl
          · rintro (h | h)
            · exact h
            · exact h.symm
        · simp only [startNames, intern, List.mem_singleton, hk, if_false, List.mem_append,
            Option.some.injEq]
          constructor
          · rintro (h | h)
            · exact .inl h
            · exact .inr h.symm
          · rintro (h | h)
            · exact .inl h
            · exact .inr h.symm
    have hnew : first.new = true ↔ n ∉ internAll (startNames s) xs := by
      by_cases hn : n ∈ internAll (startNames s) xs
      · simp [first, h1.getOrCreate_mem hn, hn]
      · simp [first, h1.getOrCreate_new hn, hn]
    rw [hnew, mem_internAll, hstart]
    simp only [not_or]
    constructor
    · rintro ⟨⟨a, b⟩, c⟩; exact ⟨c, a, b⟩
    · rintro ⟨c, a, b⟩; exact ⟨⟨a, b⟩, c⟩
  · intro m hm
    have hem := h2.entry m
    have hp' : internAll (startNames s) (xs ++ n :: ys)
        <+: intern (internAll (startNames s) (xs ++ n :: ys)) m := by
      unfold intern; split
      · exact List.prefix_refl _
      · exact List.prefix_append _ _
    have hn' := hp'.subset hmem2
    have hm' := mem_intern (internAll (startNames s) (xs ++ n :: ys)) m
    rw [hem.1, hem.2, show first.index = _ from he.1, show first.offset = _ from he.2, ← htake,
      ← hidx, ← take_idxOf_prefix hp' hmem2, ← idxOf_prefix hp' hmem2]
    constructor
    · intro h; exact hm (offset_inj hm' hn' h)
    · intro h
      apply hm
      refine offset_inj hm' hn' ?_
      rw [h]

/-- Three names, the second requested twice: offsets 1, 5, 1. -/
example : (((start none).after [b!"foo"]).getOrCreate b!"a").1 = ⟨2, 5, true⟩ := by decide
example : (((start none).after [b!"foo", b!"a"]).getOrCreate b!"foo").1 = ⟨1, 1, false⟩ := by decide

/-- **C04**: in the image, for every iteration order of the map, the NUL-terminated string at the
offset handed out for a name is that name, also after any further requests. -/
theorem C04_image_reads_back (s : Option Name) (xs ys : List Name) (n : Name)
    (hz : (0 : UInt8) ∉ n) (entries : List (Name × (Nat × Nat)))
    (hp : entries.Perm ((start s).after (xs ++ n :: ys)).names) :
    cstrAt (chunkIn entries) ((start s).after xs |>.getOrCreate n).1.offset = some n := by
  have hC03 := (C03_interning_stable_injective s xs ys n).1
  have h2 : Holds ((start s).after (xs ++ n :: ys)) (internAll (startNames s) (xs ++ n :: ys)) :=
    (holds_start s).after _
  have hmem2 : n ∈ internAll (startNames s) (xs ++ n :: ys) := by
    rw [mem_internAll]; exact .inr (by simp)
  rw [h2.getOrCreate_mem hmem2] at hC03
  have hoff := congrArg Entry.offset hC03
  simp only at hoff
  rw [← hoff]
  rw [h2.names] at hp
  unfold chunkIn
  rw [sortedNamesIn_perm hp, flatMap_lay]
  exact cstrAt_flatMap n hmem2 hz

/-- a reversed map -/
example : cstrAt (chunkIn ((start none).after [b!"foo", b!"a"]).names.reverse) 5 = some b!"a" := by
  decide

/-- **C05**: for every iteration order of the map, looking an offset up gives a name exactly when
that name was handed out that offset. -/
theorem C05_lookup_inverts_interning (s : Option Name) (xs : List Name) (n : Name) (off : Nat)
    (entries : List (Name × (Nat × Nat))) (hp : entries.Perm ((start s).after xs).names) :
    nameIn entries off = some n ↔
      ∃ i, ((start s).after xs |>.getOrCreate n).1 = { index := i, offset := off, new := false } := by
  have h : Holds ((start s).after xs) (internAll (startNames s) xs) := (holds_start s).after xs
  rw [h.names] at hp
  constructor
  · intro hf
    unfold nameIn at hf
    obtain ⟨e, he, hn⟩ := Option.map_eq_some_iff.1 hf
    have hmem := hp.mem_iff.1 (List.mem_of_find?_eq_some he)
    have hoff := List.find?_some he
    obtain ⟨h1, h2⟩ := mem_lay h.nodup hmem
    subst hn
    refine ⟨(internAll (startNames s) xs).idxOf e.1, ?_⟩
    rw [h.getOrCreate_mem h1]
    have : e.2.2 = off := by simpa using hoff
    rw [← this, h2]
    simp
  · rintro ⟨i, hi⟩
    have hmem : n ∈ internAll (startNames s) xs := by
      apply Decidable.byContradiction
      intro hn
      rw [h.getOrCreate_new hn] at hi
      exact absurd (congrArg Entry.new hi) (by simp)
    rw [h.getOrCreate_mem hmem] at hi
    have hoff := congrArg Entry.offset hi
    simp only at hoff
    have hin := hp.mem_iff.2 (mem_lay_of_mem (i := 0) (o := 0) hmem)
    simp only [Nat.zero_add] at hin
    unfold nameIn
    cases hf : entries.find? fun e => e.2.2 == off with
    | none =>
      have := List.find?_eq_none.1 hf _ hin
      simp [hoff] at this
    | some e =>
      have hmem' := hp.mem_iff.1 (List.mem_of_find?_eq_some hf)
      have hoff' := List.find?_some hf
      obtain ⟨h1, h2⟩ := mem_lay h.nodup hmem'
      have : e.2.2 = off := by simpa using hoff'
      rw [h2] at this
      simp only [Nat.zero_add] at this
      simp only [Option.map_some, Option.some.injEq]
      exact offset_inj h1 hmem (by rw [this, hoff])

example : nameIn ((start none).after [b!"foo", b!"a"]).names.reverse 5 = some b!"a" ∧
    nameIn ((start none).after [b!"foo", b!"a"]).names.reverse 2 = none := by decide

/-- **C06**: the image is as long as the size recorded in the section header, whatever the
iteration order. -/
theorem C06_image_length (s : Option Name) (xs : List Name) (entries : List (Name × (Nat × Nat)))
    (hp : entries.Perm ((start s).after xs).names) :
    (chunkIn entries).length = ((start s).after xs).totalLen := by
  have h : Holds ((start s).after xs) (internAll (startNames s) xs) := (holds_start s).after xs
  rw [h.names] at hp
  unfold chunkIn
  rw [sortedNamesIn_perm hp, flatMap_lay, length_flatMap_serName, h.total]

example : ((start (some b!".shstrtab")).after [b!".text", b!".text"]).totalLen = 17 := by decide

end Dld
