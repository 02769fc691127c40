import Verif.Lemmas.Unused
import Verif.Props.Sound
/-! # C119, C120, C129: libraries and archives that are not used -/
namespace Dld
namespace Linker

variable {env : Env} {l : Linker} {α : Type}

/-- the orders for the files, with one more file at number `k` -/
def insertAt (k : Nat) (f : Nat → List α → List α) (i : Nat) : List α → List α :=
  if i < k then f i else if i = k then fun l => l else f (i - 1)

/-- the orders for the files without the one at number `k` -/
def dropAt (k : Nat) (f : Nat → List α → List α) (i : Nat) : List α → List α := f (if i < k then i else i + 1)

theorem insertAt_perm {f : Nat → List α → List α} (h : ∀ i l, (f i l).Perm l) (k i : Nat) (l : List α) : (insertAt k f i l).Perm l := by
  unfold insertAt
  split
  · exact h _ _
  · split
    · exact List.Perm.refl _
    · exact h _ _

theorem insertAt_low {f : Nat → List α → List α} {k i : Nat} (h : i < k) : insertAt k f i = f i := if_pos h

theorem insertAt_high {f : Nat → List α → List α} {k i : Nat} (h : k ≤ i) : insertAt k f (i + 1) = f i := by
  rw [insertAt, if_neg (by omega), if_neg (by omega)]; rfl

theorem dropAt_low {f : Nat → List α → List α} {k i : Nat} (h : i < k) : f i = dropAt k f i := by rw [dropAt, if_pos h]

theorem dropAt_high {f : Nat → List α → List α} {k i : Nat} (h : k ≤ i) : f (i + 1) = dropAt k f i := by rw [dropAt, if_neg (by omega)]

/-- **C129** (libraries): the first library that has a symbol is the one it is taken from: giving the linker one more shared library does not change the outcome
when every symbol of it that an input leaves undefined is in a library given before it. -/
theorem C129_library {before after : List (Path × Bool)} {p : Path} (b : Bool) (hl : l.options.sharedLibs = before ++ after) (hun : SpareLib env l (before.map (·.1)) p)
    (hn : NamesSmall env l) : SameOutcomes env l (l.withLib before (p, b) after) where
  right sched hv := by
    have hv1 : LinkSched.Valid { sched with undefLib := fun r => insertAt before.length (sched.undefLib r) } :=
      ⟨hv.toSched, fun r i l => insertAt_perm (hv.undefLib r) _ _ _, hv.undefAr, hv.members, hv.archives⟩
    exact ⟨_, hv1, fun fuel => link_unusedLib hv hv1 hl ⟨rfl, fun r i h => insertAt_low h, fun r i h => insertAt_high h, rfl, rfl, rfl⟩ hun hn fuel⟩
  left sched hv := by
    have hv1 : LinkSched.Valid { sched with undefLib := fun r => dropAt before.length (sched.undefLib r) } :=
      ⟨hv.toSched, fun r i l => hv.undefLib _ _ _, hv.undefAr, hv.members, hv.archives⟩
    exact ⟨_, hv1, fun fuel => link_unusedLib hv1 hv hl ⟨rfl, fun r i h => dropAt_low h, fun r i h => dropAt_high h, rfl, rfl, rfl⟩ hun hn fuel⟩

/-- **C129** (archives): libraries come before archives: giving the linker one more archive does not change the outcome when every symbol in its index that an
input leaves undefined is in a library. -/
theorem C129_archive {p : Path} (hun : SpareArchive env l p) (hn : NamesSmall env l) : SameOutcomes env l (l.withArchive p) where
  right sched hv := by
    have hv1 : LinkSched.Valid { sched with
        undefAr := fun r => insertAt 0 (sched.undefAr r), members := fun r => insertAt 0 (sched.members r)
        archives := fun L => if L = p :: l.archives then p :: sched.archives l.archives else sched.archives L } := by
      refine ⟨hv.toSched, hv.undefLib, fun r i l => insertAt_perm (hv.undefAr r) 0 i l, fun r i l => insertAt_perm (α := Bytes) (hv.members r) 0 i l, fun L => ?_⟩
      show (if L = p :: l.archives then p :: sched.archives l.archives else sched.archives L).Perm L
      split
      · next h => rw [h]; exact (hv.archives _).cons _
      · exact hv.archives _
    exact ⟨_, hv1, fun fuel => link_unusedArchive hv hv1 (before := []) rfl (if_pos rfl)
      ⟨rfl, rfl, fun r i h => ⟨insertAt_low h, insertAt_low h⟩, fun r i h => ⟨insertAt_high h, insertAt_high h⟩⟩ hun hn fuel⟩
  left sched hv := by
    obtain ⟨X, Y, e⟩ := List.append_of_mem ((hv.archives (p :: l.archives)).mem_iff.2 List.mem_cons_self)
    have hp : (X ++ Y).Perm l.archives := by
      have h := hv.archives (p :: l.archives)
      rw [e] at h
      exact (List.perm_middle.symm.trans h).cons_inv
    have hv1 : LinkSched.Valid { sched with
        undefAr := fun r => dropAt X.length (sched.undefAr r), members := fun r => dropAt X.length (sched.members r)
        archives := fun L => if L = l.archives then X ++ Y else sched.archives L } := by
      refine ⟨hv.toSched, hv.undefLib, fun r i l => hv.undefAr _ _ _, fun r i l => hv.members _ _ _, fun L => ?_⟩
      show (if L = l.archives then X ++ Y else sched.archives L).Perm L
      split
      · next h => rw [h]; exact hp
      · exact hv.archives _
    exact ⟨_, hv1, fun fuel => link_unusedArchive hv1 hv (if_pos rfl) e
      ⟨rfl, rfl, fun r i h => ⟨dropAt_low h, dropAt_low h⟩, fun r i h => ⟨dropAt_high h, dropAt_high h⟩⟩ hun hn fuel⟩

/-- **C129** (the same library again): naming a library that was named before changes nothing. -/
theorem C129_again {before after : List (Path × Bool)} {p : Path} (b : Bool) (hl : l.options.sharedLibs = before ++ after) (hp : p ∈ before.map (·.1))
    {data : Bytes} {e : ElfFile} (hd : env.read p = some data) (he : env.parseElf data = some e) (hnames : ∀ s ∈ e.dynsyms, (e.dynName s.st_name).isSome)
    (hn : NamesSmall env l) : SameOutcomes env l (l.withLib before (p, b) after) :=
  C129_library b hl ⟨data, e, hd, he, fun s hs => by
    obtain ⟨n, h⟩ := Option.isSome_iff_exists.1 (hnames s hs)
    exact ⟨n, h, .inr ⟨p, hp, data, e, hd, he, s, hs, h⟩⟩⟩ hn

/-- **C119**: giving the linker one more shared library, anywhere among the libraries and with or without `--as-needed`, does not change the
outcome when no input leaves a symbol undefined that the library has. -/
theorem C119 {before after : List (Path × Bool)} {p : Path} (b : Bool) (hl : l.options.sharedLibs = before ++ after) (hun : UnusedLib env l p)
    (hn : NamesSmall env l) : SameOutcomes env l (l.withLib before (p, b) after) := by
  obtain ⟨data, e, hd, he, h⟩ := hun.parsed
  exact C129_library b hl ⟨data, e, hd, he, fun s hs => (h s hs).imp fun n h => ⟨h.1, .inl h.2⟩⟩ hn

/-- **C120**: giving the linker one more archive does not change the outcome when no input leaves a symbol undefined that is in the index of the
archive. -/
theorem C120 {p : Path} (hun : UnusedArchive env l p) (hn : NamesSmall env l) : SameOutcomes env l (l.withArchive p) := by
  obtain ⟨data, ar, hd, he, h⟩ := hun.parsed
  exact C129_archive ⟨data, ar, hd, he, fun q hq => .inl (h q hq)⟩ hn

/-! ## Concrete cases -/

/-- a shared library with `h`, which nobody needs -/
def spareElf : ElfFile where
  isObjectFile := false
  sectionHeaders := []
  secName := fun _ => none
  syms := []
  symName := fun _ => none
  shdrRelocs := []
  dynsyms := [{}, { demoSym STT_FUNC 5 0x1000 4 with st_name := 1 }]
  dynName := AMap.get? [(0, []), (1, b!"h")]

def spareLib : Path := ⟨b!"lib/libh.so", some b!"libh.so"⟩
def spareAr : Path := ⟨b!"lib/libk.a", some b!"libk.a"⟩

/-- the files of the demonstration, and a library and an archive that are not needed; the archive's member is not even an object file -/
def spareEnv : Env :=
  tableEnv [(mainPath, List.replicate 16 0x90), (libPath, b!"library"), (arPath, b!"archive"), (spareLib, b!"spare"), (spareAr, b!"other archive")]
    [(List.replicate 16 0x90, mainElf), (b!"library", libElf), (List.replicate 8 0xc3, memberElf), (b!"spare", spareElf)]
    [(b!"archive", { index := [(b!"g", b!"g.o")], get := AMap.get? [(b!"g.o", List.replicate 8 0xc3)] }),
      (b!"other archive", { index := [(b!"k", b!"k.o")], get := AMap.get? [(b!"k.o", b!"text")] })]

theorem spare_open {l : Linker} {n : Name} (h : LeftOpen spareEnv l n) : n = b!"f" ∨ n = b!"g" := by
  obtain ⟨e, s, hi, hs, hn, h0, hb⟩ := h
  have he := hi.of_table
  simp only [List.map_cons, List.map_nil, List.mem_cons, List.not_mem_nil, or_false] at he
  have key : ∀ e ∈ [mainElf, libElf, memberElf, spareElf], ∀ s ∈ e.syms, s.st_shndx = 0 → (s.st_info / 16 = 1 ∨ s.st_info / 16 = 2) →
      e.symName s.st_name = some b!"f" ∨ e.symName s.st_name = some b!"g" := by decide +kernel
  rcases key e (by simpa using he) s hs h0 hb with h | h
  · exact .inl (Option.some.inj (hn.symm.trans h))
  · exact .inr (Option.some.inj (hn.symm.trans h))

theorem spare_lib : UnusedLib spareEnv demoLinker spareLib := by
  refine ⟨_, spareElf, rfl, rfl, ?_⟩
  have key : ∀ s ∈ spareElf.dynsyms, ∃ n, spareElf.dynName s.st_name = some n ∧ n ≠ b!"f" ∧ n ≠ b!"g" := by
    intro s hs
    simp only [spareElf, List.mem_cons, List.not_mem_nil, or_false] at hs
    rcases hs with rfl | rfl
    · exact ⟨_, rfl, by decide, by decide⟩
    · exact ⟨_, rfl, by decide, by decide⟩
  intro s hs
  obtain ⟨n, h1, h2, h3⟩ := key s hs
  exact ⟨n, h1, fun h => (spare_open h).elim h2 h3⟩

theorem spare_archive : UnusedArchive spareEnv demoLinker spareAr := by
  refine ⟨_, _, rfl, rfl, fun q hq h => ?_⟩
  have hq : q ∈ [(b!"k", b!"k.o")] := hq
  rw [List.mem_singleton] at hq
  subst hq
  exact (spare_open h).elim (by decide) (by decide)

/-- The link of the demonstration, which needs its own library and archive, succeeds and has the same outcomes with the further library before or
after its library, and with the further archive. -/
example : links spareEnv demoLinker LinkSched.id 5 (fun _ _ _ _ => true) = true ∧
    SameOutcomes spareEnv demoLinker (demoLinker.withLib [] (spareLib, true) [(libPath, false)]) ∧
    SameOutcomes spareEnv demoLinker (demoLinker.withLib [(libPath, false)] (spareLib, false) []) ∧
    SameOutcomes spareEnv demoLinker (demoLinker.withArchive spareAr) :=
  have hn : NamesSmall spareEnv demoLinker := NamesSmall.of_table (by decide +kernel)
  ⟨by decide +kernel, C119 true rfl spare_lib hn, C119 false rfl spare_lib hn, C120 spare_archive hn⟩

/-- a copy of the library of the demonstration -/
def copyLib : Path := ⟨b!"lib/libcopy.so", some b!"libcopy.so"⟩

/-- `lib/libcopy.so` has `f` as `lib/libf.so` has, and `lib/libk.a` has it as well -/
def copyEnv : Env :=
  tableEnv [(mainPath, List.replicate 16 0x90), (libPath, b!"library"), (arPath, b!"archive"), (copyLib, b!"library"), (spareAr, b!"other archive")]
    [(List.replicate 16 0x90, mainElf), (b!"library", libElf), (List.replicate 8 0xc3, memberElf)]
    [(b!"archive", { index := [(b!"g", b!"g.o")], get := AMap.get? [(b!"g.o", List.replicate 8 0xc3)] }),
      (b!"other archive", { index := [(b!"f", b!"f.o")], get := AMap.get? [(b!"f.o", b!"text")] })]

theorem copy_spare : SpareLib copyEnv demoLinker [libPath] copyLib :=
  ⟨_, libElf, rfl, rfl, fun s hs => by
    obtain ⟨n, h⟩ := Option.isSome_iff_exists.1 ((by decide +kernel : ∀ s ∈ libElf.dynsyms, (libElf.dynName s.st_name).isSome = true) s hs)
    exact ⟨n, h, .inr ⟨libPath, by simp, _, libElf, rfl, rfl, s, hs, h⟩⟩⟩

theorem copy_archive : SpareArchive copyEnv demoLinker spareAr :=
  ⟨_, _, rfl, rfl, fun q hq => by
    have hq : q ∈ [(b!"f", b!"f.o")] := hq
    cases List.mem_singleton.1 hq
    obtain ⟨s, hs, hn⟩ := (by decide +kernel : ∃ s ∈ libElf.dynsyms, libElf.dynName s.st_name = some b!"f")
    exact .inr ⟨libPath, s, by decide, _, libElf, rfl, rfl, hs, hn⟩⟩

example : links copyEnv demoLinker LinkSched.id 5 (fun _ _ _ _ => true) = true ∧
    SameOutcomes copyEnv demoLinker (demoLinker.withLib [(libPath, false)] (copyLib, false) []) ∧
    SameOutcomes copyEnv demoLinker (demoLinker.withLib [(libPath, false)] (libPath, true) []) ∧
    SameOutcomes copyEnv demoLinker (demoLinker.withArchive spareAr) :=
  have hn : NamesSmall copyEnv demoLinker := NamesSmall.of_table (by decide +kernel)
  ⟨by decide +kernel, C129_library false rfl copy_spare hn, C129_again true rfl (by decide) (data := b!"library") (e := libElf) rfl rfl (by decide +kernel) hn,
    C129_archive copy_archive hn⟩

/-- The library must come later: before the other, it is the one that is used, and the executable names it. -/
example : links copyEnv (demoLinker.withLib [] (copyLib, false) [(libPath, false)]) LinkSched.id 5 (fun _ _ f _ =>
      Spec.neededNames (Spec.bodyNamed f b!".dynamic") (Spec.bodyNamed f b!".dynstr") == [some b!"ld-linux-x86-64.so.2", some b!"libcopy.so"]) = true ∧
    links copyEnv (demoLinker.withLib [(libPath, false)] (copyLib, false) []) LinkSched.id 5 (fun _ _ f _ =>
      Spec.neededNames (Spec.bodyNamed f b!".dynamic") (Spec.bodyNamed f b!".dynstr") == [some b!"ld-linux-x86-64.so.2", some b!"libf.so"]) = true := by
  constructor <;> decide +kernel

/-- The hypothesis is needed: without `f` the library is used and the outcome changes. -/
example : links spareEnv { demoLinker with options := { demoLinker.options with sharedLibs := [] } } LinkSched.id 5 (fun _ _ _ _ => true) = false := by
  decide +kernel

end Linker
end Dld
