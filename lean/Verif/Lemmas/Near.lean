import Verif.Spec.Shape
import Verif.Lemmas.Pipeline
import Verif.Lemmas.Symtab
import Verif.Lemmas.Fails
import Verif.Lemmas.LinkGood
/-! # The contents of the sections have no influence on the layout -/
namespace Dld

section
variable {α β γ δ σ τ : Type}

theorem Kin.bind {R : α → β → Prop} {S : γ → δ → Prop} {x : M α} {y : M β} (h : Kin R x y) {k : α → M γ} {k' : β → M δ} (hk : ∀ a b, R a b → Kin S (k a) (k' b)) :
    Kin S (x >>= k) (y >>= k') := by
  cases h with
  | ok h => exact hk _ _ h
  | err e => exact .err e
  | left y => exact .left _
  | right x => exact .right _

theorem Kin.imp {R S : α → β → Prop} {x : M α} {y : M β} (h : Kin R x y) (hi : ∀ a b, R a b → S a b) : Kin S x y := by
  cases h with
  | ok h => exact .ok (hi _ _ h)
  | err e => exact .err e
  | left y => exact .left _
  | right x => exact .right _

theorem Kin.refl (x : M α) : Kin Eq x x := by
  cases x with
  | ok a => exact .ok rfl
  | error e => exact .err e

theorem Kin.unwrap {R : α → β → Prop} : ∀ {x : Option α} {y : Option β}, (∀ a b, x = some a → y = some b → R a b) → Kin R (unwrap x) (unwrap y)
  | none, _, _ => .left _
  | some _, none, _ => .right _
  | some _, some _, h => .ok (h _ _ rfl rfl)

theorem Kin.ite {R : α → β → Prop} {c : Prop} [Decidable c] {x y : M α} {x' y' : M β} (hx : Kin R x x') (hy : Kin R y y') :
    Kin R (if c then x else y) (if c then x' else y') := by
  split
  · exact hx
  · exact hy

theorem Kin.foldM' {R : σ → τ → Prop} {g : α → γ} {F : σ → α → M σ} {F' : τ → α → M τ} (h : ∀ s t a b, R s t → g b = g a → Kin R (F s a) (F' t b)) :
    ∀ {l l' : List α} {s : σ} {t : τ}, R s t → l'.map g = l.map g → Kin R (foldM' F s l) (foldM' F' t l')
  | [], [], _, _, hs, _ => .ok hs
  | a :: l, b :: l', s, t, hs, hl => by
    rw [List.map_cons, List.map_cons, List.cons.injEq] at hl
    rw [foldM'_cons, foldM'_cons]
    exact (h s t a b hs hl.1).bind fun s t hst => Kin.foldM' h hst hl.2
  | [], _ :: _, _, _, _, hl => nomatch hl
  | _ :: _, [], _, _, _, hl => nomatch hl

theorem Kin.loop {R : σ → τ → Prop} {F : σ → α → M σ} {F' : τ → α → M τ} (h : ∀ s t a, R s t → Kin R (F s a) (F' t a)) {l : List α} {s : σ} {t : τ}
    (hs : R s t) : Kin R (Dld.foldM' F s l) (Dld.foldM' F' t l) :=
  Kin.foldM' (g := id) (fun s t _ b hst (e : b = _) => e ▸ h s t b hst) hs rfl

theorem mapAccumM_bind (F : σ → α → M (σ × β)) (s : σ) (a : α) (l : List α) :
    mapAccumM F s (a :: l) = (F s a >>= fun x => mapAccumM F x.1 l >>= fun y => .ok (y.1, x.2 :: y.2)) := by
  rw [Dld.mapAccumM]
  cases F s a with
  | error e => rfl
  | ok x =>
    simp only [ok_bind]
    cases Dld.mapAccumM F x.1 l with
    | error e => rfl
    | ok y => rfl

theorem Kin.mapAccumM {g : α → γ} {k : β → δ} {F F' : σ → α → M (σ × β)} (h : ∀ s a b, g b = g a → Kin (fun x y => y.1 = x.1 ∧ k y.2 = k x.2) (F s a) (F' s b)) :
    ∀ {l l' : List α} {s : σ}, l'.map g = l.map g →
      Kin (fun x y : σ × List β => y.1 = x.1 ∧ y.2.map k = x.2.map k) (mapAccumM F s l) (mapAccumM F' s l')
  | [], [], _, _ => .ok ⟨rfl, rfl⟩
  | a :: l, b :: l', s, hl => by
    rw [List.map_cons, List.map_cons, List.cons.injEq] at hl
    rw [mapAccumM_bind, mapAccumM_bind]
    refine (h s a b hl.1).bind fun x y hxy => ?_
    rw [hxy.1]
    refine (Kin.mapAccumM h hl.2).bind fun u v huv => .ok ⟨huv.1, ?_⟩
    show k y.2 :: _ = k x.2 :: _
    rw [hxy.2]
    exact congrArg _ huv.2
  | [], _ :: _, _, hl => nomatch hl
  | _ :: _, [], _, hl => nomatch hl

end

/-! ## Chunks and sections -/

theorem Chunk.blank_iff {c c' : Chunk} : c'.blank = c.blank ↔
    c'.address = c.address ∧ c'.data.length = c.data.length ∧ c'.symbols = c.symbols ∧ c'.relocations = c.relocations := by
  unfold Chunk.blank
  rw [Chunk.mk.injEq]
  constructor
  · rintro ⟨h1, h2, h3, h4⟩
    exact ⟨h1, by simpa using congrArg List.length h2, h3, h4⟩
  · rintro ⟨h1, h2, h3, h4⟩
    exact ⟨h1, by rw [h2], h3, h4⟩

theorem Section.blank_iff {s s' : Section} : s'.blank = s.blank ↔
    s'.ptr = s.ptr ∧ s'.index = s.index ∧ s'.link = s.link ∧ s'.kind = s.kind ∧ s'.sh = s.sh ∧ s'.chunks.map Chunk.blank = s.chunks.map Chunk.blank := by
  unfold Section.blank
  rw [Section.mk.injEq]

theorem chunks_length {l l' : List Chunk} (h : l'.map Chunk.blank = l.map Chunk.blank) : l'.length = l.length := by
  simpa using congrArg List.length h

theorem map_modify_blank {α β : Type} {g : α → β} {F F' : α → α} (hF : ∀ a b, g b = g a → g (F' b) = g (F a)) : ∀ {l l' : List α} (i : Nat), l'.map g = l.map g →
    (l'.modify i F').map g = (l.modify i F).map g
  | [], [], i, _ => by cases i <;> rfl
  | a :: l, b :: l', 0, h => by
    rw [List.map_cons, List.map_cons, List.cons.injEq] at h
    show g (F' b) :: l'.map g = g (F a) :: l.map g
    rw [hF a b h.1, h.2]
  | a :: l, b :: l', i + 1, h => by
    rw [List.map_cons, List.map_cons, List.cons.injEq] at h
    show g b :: (l'.modify i F').map g = g a :: (l.modify i F).map g
    rw [h.1, map_modify_blank hF i h.2]
  | [], _ :: _, _, h => nomatch h
  | _ :: _, [], _, h => nomatch h

theorem map_map_rel {α β : Type} {g : α → β} {F F' : α → α} (hF : ∀ a b, g b = g a → g (F' b) = g (F a)) : ∀ {l l' : List α}, l'.map g = l.map g →
    (l'.map F').map g = (l.map F).map g
  | [], [], _ => rfl
  | a :: l, b :: l', h => by
    rw [List.map_cons, List.map_cons, List.cons.injEq] at h
    simp only [List.map_cons]
    rw [hF a b h.1, map_map_rel hF h.2]
  | [], _ :: _, h => nomatch h
  | _ :: _, [], h => nomatch h

theorem find_rel {α β : Type} {g : α → β} {p : α → Bool} (hp : ∀ a b, g b = g a → p b = p a) : ∀ {l l' : List α}, l'.map g = l.map g →
    (l'.find? p).map g = (l.find? p).map g
  | [], [], _ => rfl
  | a :: l, b :: l', h => by
    rw [List.map_cons, List.map_cons, List.cons.injEq] at h
    rw [List.find?_cons, List.find?_cons, hp a b h.1]
    split
    · rw [Option.map_some, Option.map_some, h.1]
    · exact find_rel hp h.2
  | [], _ :: _, h => nomatch h
  | _ :: _, [], h => nomatch h

theorem filter_rel {α β : Type} {g : α → β} {p : α → Bool} (hp : ∀ a b, g b = g a → p b = p a) : ∀ {l l' : List α}, l'.map g = l.map g →
    (l'.filter p).map g = (l.filter p).map g
  | [], [], _ => rfl
  | a :: l, b :: l', h => by
    rw [List.map_cons, List.map_cons, List.cons.injEq] at h
    rw [List.filter_cons, List.filter_cons, hp a b h.1]
    split
    · rw [List.map_cons, List.map_cons, h.1, filter_rel hp h.2]
    · exact filter_rel hp h.2
  | [], _ :: _, h => nomatch h
  | _ :: _, [], h => nomatch h

theorem getElem_rel {α β : Type} {g : α → β} {l l' : List α} (h : l'.map g = l.map g) (i : Nat) : (l'[i]?).map g = (l[i]?).map g := by
  rw [← List.getElem?_map, ← List.getElem?_map, h]

theorem drop_rel {α β : Type} {g : α → β} {l l' : List α} (h : l'.map g = l.map g) (i : Nat) : (l'.drop i).map g = (l.drop i).map g := by
  rw [List.map_drop, List.map_drop, h]

theorem take_rel {α β : Type} {g : α → β} {l l' : List α} (h : l'.map g = l.map g) (i : Nat) : (l'.take i).map g = (l.take i).map g := by
  rw [List.map_take, List.map_take, h]

namespace Section
variable {s s' : Section}

theorem addChunk_rel (h : s'.blank = s.blank) {d d' : Bytes} (hd : d'.length = d.length) : (s'.addChunk d').blank = (s.addChunk d).blank := by
  obtain ⟨h1, h2, h3, h4, h5, h6⟩ := blank_iff.1 h
  refine blank_iff.2 ⟨h1, h2, h3, h4, h5, ?_⟩
  show (s'.chunks ++ _).map _ = (s.chunks ++ _).map _
  rw [List.map_append, List.map_append, h6]
  congr 1
  exact congrArg (· :: []) (Chunk.blank_iff.2 ⟨rfl, hd, rfl, rfl⟩)

theorem sh_rel (h : s'.blank = s.blank) (f : SectionHeader → SectionHeader) : ({ s' with sh := f s'.sh } : Section).blank = ({ s with sh := f s.sh } : Section).blank := by
  obtain ⟨h1, h2, h3, h4, h5, h6⟩ := blank_iff.1 h
  exact blank_iff.2 ⟨h1, h2, h3, h4, by show f s'.sh = f s.sh; rw [h5], h6⟩

theorem sizeOnDisk_rel (h : s'.blank = s.blank) : s'.sizeOnDisk = s.sizeOnDisk := by
  unfold sizeOnDisk
  rw [(blank_iff.1 h).2.2.2.2.1]

theorem setChunkAddrs_rel : ∀ {l l' : List Chunk} (b : Nat), l'.map Chunk.blank = l.map Chunk.blank → (setChunkAddrs b l').map Chunk.blank = (setChunkAddrs b l).map Chunk.blank
  | [], [], _, _ => rfl
  | a :: l, c :: l', b, h => by
    rw [List.map_cons, List.map_cons, List.cons.injEq] at h
    obtain ⟨h1, h2, h3, h4⟩ := Chunk.blank_iff.1 h.1
    rw [setChunkAddrs, setChunkAddrs, List.map_cons, List.map_cons, h2, setChunkAddrs_rel _ h.2]
    congr 1
    exact Chunk.blank_iff.2 ⟨rfl, h2, h3, h4⟩
  | [], _ :: _, _, h => nomatch h
  | _ :: _, [], _, h => nomatch h

theorem setAddress_rel (h : s'.blank = s.blank) (a : Nat) : (s'.setAddress a).blank = (s.setAddress a).blank := by
  obtain ⟨h1, h2, h3, h4, h5, h6⟩ := blank_iff.1 h
  exact blank_iff.2 ⟨h1, h2, h3, h4, by show ({ s'.sh with sh_addr := a } : SectionHeader) = { s.sh with sh_addr := a }; rw [h5], setChunkAddrs_rel a h6⟩

theorem patchChunks_rel (i : Nat) : ∀ {l l' : List Chunk} (b : Nat) (t : SymbolTable), l'.map Chunk.blank = l.map Chunk.blank →
    patchChunks i b t l' = patchChunks i b t l
  | [], [], _, _, _ => rfl
  | a :: l, c :: l', b, t, h => by
    rw [List.map_cons, List.map_cons, List.cons.injEq] at h
    obtain ⟨h1, h2, h3, h4⟩ := Chunk.blank_iff.1 h.1
    rw [patchChunks, patchChunks, h2, h3]
    exact patchChunks_rel i _ _ h.2
  | [], _ :: _, _, _, h => nomatch h
  | _ :: _, [], _, _, h => nomatch h

theorem patchSymbolValues_rel (h : s'.blank = s.blank) (t : SymbolTable) : s'.patchSymbolValues t = s.patchSymbolValues t := by
  obtain ⟨h1, h2, h3, h4, h5, h6⟩ := blank_iff.1 h
  unfold patchSymbolValues
  rw [h2, h5]
  exact patchChunks_rel _ _ _ h6

theorem modify_rel (h : s'.blank = s.blank) (i : Nat) {f f' : Chunk → Chunk} (hf : ∀ c c' : Chunk, c'.blank = c.blank → (f' c').blank = (f c).blank) :
    ({ s' with chunks := s'.chunks.modify i f' } : Section).blank = ({ s with chunks := s.chunks.modify i f } : Section).blank := by
  obtain ⟨h1, h2, h3, h4, h5, h6⟩ := blank_iff.1 h
  exact blank_iff.2 ⟨h1, h2, h3, h4, h5, map_modify_blank hf i h6⟩

theorem modifyChunk_rel (h : s'.blank = s.blank) (i : Nat) {f f' : Chunk → Chunk} (hf : ∀ c c' : Chunk, c'.blank = c.blank → (f' c').blank = (f c).blank) :
    Kin (fun a b : Section => b.blank = a.blank) (s.modifyChunk i f) (s'.modifyChunk i f') := by
  unfold modifyChunk
  rw [chunks_length (blank_iff.1 h).2.2.2.2.2]
  exact .ite (.ok (modify_rel h i hf)) (.err _)

end Section

theorem Chunk.addSymbol_rel {c c' : Chunk} (h : c'.blank = c.blank) (r : SymbolRef) : (c'.addSymbol r).blank = (c.addSymbol r).blank := by
  obtain ⟨h1, h2, h3, h4⟩ := blank_iff.1 h
  unfold addSymbol
  rw [h3]
  split
  · exact h
  · exact blank_iff.2 ⟨h1, h2, rfl, h4⟩

theorem Chunk.addRelocation_rel {c c' : Chunk} (h : c'.blank = c.blank) (rel : Rela) (r : SymbolRef) : (c'.addRelocation rel r).blank = (c.addRelocation rel r).blank := by
  obtain ⟨h1, h2, h3, h4⟩ := blank_iff.1 h
  exact blank_iff.2 ⟨h1, h2, h3, by show c'.relocations ++ _ = c.relocations ++ _; rw [h4]⟩


/-- the same states of the writer up to the contents of sections -/
inductive Writer.Alike (w : Writer) : Writer → Prop where
  | mk (ss : List Section) : ss.map Section.blank = w.sections.map Section.blank → Alike w { w with sections := ss }

namespace Writer
variable {w w' : Writer}

theorem Alike.eq (h : Alike w w') : w' = { w with sections := w'.sections } := by cases h; rfl

theorem Alike.secs (h : Alike w w') : w'.sections.map Section.blank = w.sections.map Section.blank := by cases h; assumption

theorem Alike.intro (h : w' = { w with sections := w'.sections }) (hs : w'.sections.map Section.blank = w.sections.map Section.blank) : Alike w w' := by
  rw [h]; exact .mk _ hs

theorem Alike.refl (w : Writer) : Alike w w := .mk _ rfl

theorem sec_near (h : Alike w w') (p : Nat) : Kin (fun s s' => s'.blank = s.blank) (w.sec p) (w'.sec p) := by
  cases h with
  | mk ss h =>
    refine Kin.unwrap fun a b ha hb => ?_
    have := find_rel (p := fun s : Section => s.ptr == p) (g := Section.blank) (fun a b hab => by rw [(Section.blank_iff.1 hab).1]) h
    have hb : ss.find? (fun s => s.ptr == p) = some b := hb
    rw [ha, hb] at this
    exact Option.some.inj this

theorem modSec_alike (h : Alike w w') (p : Nat) {f f' : Section → Section} (hf : ∀ s s' : Section, s'.blank = s.blank → (f' s').blank = (f s).blank) :
    Alike (w.modSec p f) (w'.modSec p f') := by
  cases h with
  | mk ss h =>
    refine .mk _ (map_map_rel (fun a b hab => ?_) h)
    rw [(Section.blank_iff.1 hab).1]
    split
    · exact hf a b hab
    · exact hab

theorem modChunk_near (h : Alike w w') (r : SectionRef) {f f' : Chunk → Chunk} (hf : ∀ c c' : Chunk, c'.blank = c.blank → (f' c').blank = (f c).blank) :
    Kin Alike (w.modChunk r f) (w'.modChunk r f') := by
  refine (sec_near h _).bind fun s s' hs => ?_
  rw [chunks_length (Section.blank_iff.1 hs).2.2.2.2.2]
  exact .ite (.ok (modSec_alike h _ fun a b hab => Section.modify_rel hab _ hf)) (.err _)

theorem pushSection_near (h : Alike w w') (name : Name) (sh : SectionHeader) {d d' : Option Bytes} (hd : d'.map List.length = d.map List.length) :
    Kin (fun x y => Alike x.1 y.1 ∧ y.2 = x.2) (w.pushSection name sh d) (w'.pushSection name sh d') := by
  cases h with
  | mk ss h =>
    unfold pushSection
    dsimp only
    have hg : (d'.getD []).length = (d.getD []).length := by
      cases d <;> cases d' <;> first | rfl | cases hd | exact Option.some.inj hd
    refine .ite (.ok ⟨.mk _ ?_, rfl⟩) ?_
    · rw [List.map_append, List.map_append, h]
      congr 1
      exact congrArg (· :: []) (Section.blank_iff.2 ⟨rfl, rfl, rfl, rfl, rfl, congrArg (· :: []) (Chunk.blank_iff.2 ⟨rfl, hg, rfl, rfl⟩)⟩)
    · have hi := getElem_rel h (w.shstr.getOrCreate name).1.index
      cases h1 : w.sections[(w.shstr.getOrCreate name).1.index]? with
      | none => exact .left _
      | some s =>
        cases h2 : ss[(w.shstr.getOrCreate name).1.index]? with
        | none => exact .right _
        | some s' =>
          rw [h1, h2] at hi
          have hi : s'.blank = s.blank := Option.some.inj hi
          have hl := chunks_length (Section.blank_iff.1 hi).2.2.2.2.2
          have hi2 := Section.sh_rel hi fun x => { x with sh_size := x.sh_size + sh.sh_size, sh_addralign := max x.sh_addralign sh.sh_addralign }
          cases d with
          | none =>
            cases d' with
            | some _ => cases hd
            | none =>
              dsimp only
              rw [hl]
              refine .ite (.err _) (.ok ⟨.mk _ ?_, by rw [(Section.blank_iff.1 hi).1]⟩)
              rw [List.map_set, List.map_set, h, hi2]
          | some b =>
            cases d' with
            | none => cases hd
            | some b' =>
              refine .ok ⟨.mk _ ?_, ?_⟩
              · rw [List.map_set, List.map_set, h]
                exact congrArg _ (Section.addChunk_rel hi2 (Option.some.inj hd))
              · dsimp only
                rw [hl, (Section.blank_iff.1 hi).1]

theorem addSymbol_near (h : Alike w w') (s : Sym) (sr : Option SectionRef) (name : Name) (p : Path) :
    Kin (fun x y => Alike x.1 y.1 ∧ y.2 = x.2) (w.addSymbol s sr name p) (w'.addSymbol s sr name p) := by
  cases h with
  | mk ss h =>
    unfold addSymbol
    dsimp only
    split
    · exact .err _
    · refine Kin.bind (R := Alike) ?_ fun a b hab => .ok ⟨hab, rfl⟩
      unfold noteSymbol
      cases sr with
      | none => exact .ok (.mk _ h)
      | some sr => exact .ite (modChunk_near (by exact .mk _ h) _ fun c c' hc => Chunk.addSymbol_rel hc _) (.ok (.mk _ h))

theorem addDynSymbol_near (h : Alike w w') (s : Sym) (name : Name) (p : Path) :
    Kin (fun x y => Alike x.1 y.1 ∧ y.2 = x.2) (w.addDynSymbol s name p) (w'.addDynSymbol s name p) := by
  cases h with
  | mk ss h =>
    unfold addDynSymbol
    dsimp only
    split
    · exact .err _
    · cases w.symstr.get name with
      | none => exact .ok ⟨.mk _ h, rfl⟩
      | some e =>
        dsimp only
        split
        · exact .err _
        · exact .ok ⟨.mk _ h, rfl⟩

theorem symbolName_alike (h : Alike w w') (r : SymbolRef) : w'.symbolName r = w.symbolName r := by
  cases h; cases r <;> rfl

theorem undefinedSymbols_alike (h : Alike w w') (o : List Nat → List Nat) : w'.undefinedSymbols o = w.undefinedSymbols o := by
  cases h; rfl

theorem addNeeded_alike (h : Alike w w') (n : Name) : Alike (w.addNeeded n) (w'.addNeeded n) := by
  cases h with
  | mk ss h => exact .mk _ h

theorem addRelocation_near (h : Alike w w') (rel : Rela) (r : SymbolRef) (sr : SectionRef) (p : Path) :
    Kin Alike (w.addRelocation rel r sr p) (w'.addRelocation rel r sr p) :=
  .ite (.err _) (modChunk_near h _ fun _ _ hc => Chunk.addRelocation_rel hc _ _)

/-! ## `compute_sections` -/

theorem scanRelocations_near (h : Alike w w') : Kin Alike w.scanRelocations w'.scanRelocations := by
  cases h with
  | mk ss h =>
    refine Kin.bind (Kin.mapAccumM (g := Section.blank) (k := Section.blank) (fun st s s' hs => ?_) h) fun x y hxy => ?_
    · obtain ⟨h1, h2, h3, h4, h5, h6⟩ := Section.blank_iff.1 hs
      refine Kin.bind (Kin.mapAccumM (g := Chunk.blank) (k := Chunk.blank) (fun st c c' hc => ?_) h6) fun x y hxy => .ok ⟨hxy.1, Section.blank_iff.2 ⟨h1, h2, h3, h4, h5, hxy.2⟩⟩
      obtain ⟨g1, g2, g3, g4⟩ := Chunk.blank_iff.1 hc
      unfold scanChunk
      rw [g4]
      exact (Kin.refl _).bind fun x y hxy => .ok (hxy ▸ ⟨rfl, Chunk.blank_iff.2 ⟨g1, g2, g3, rfl⟩⟩)
    · dsimp only
      rw [hxy.1]
      exact .ok (.mk _ hxy.2)

theorem growZero_rel (n : Nat) {s s' : Section} (h : s'.blank = s.blank) : (growZero n s').blank = (growZero n s).blank := by
  obtain ⟨h1, h2, h3, h4, h5, h6⟩ := Section.blank_iff.1 h
  refine Section.blank_iff.2 ⟨h1, h2, h3, h4, ?_, ?_⟩
  · show ({ s'.sh with sh_size := n } : SectionHeader) = { s.sh with sh_size := n }
    rw [h5]
  · show (s'.chunks ++ _).map _ = (s.chunks ++ _).map _
    rw [List.map_append, List.map_append, h6]

theorem setSize_rel (n : Nat) {s s' : Section} (h : s'.blank = s.blank) : (setSize n s').blank = (setSize n s).blank :=
  Section.sh_rel h fun x => { x with sh_size := n }

theorem resizeGot_alike (h : Alike w w') : Alike w.resizeGot w'.resizeGot := by
  have := modSec_alike h P.got (f := growZero (8 * w.gotLen)) (f' := growZero (8 * w'.gotLen)) (fun _ _ hs => by rw [h.eq]; exact growZero_rel _ hs)
  exact this

theorem resizeGotPlt_alike (h : Alike w w') : Alike w.resizeGotPlt w'.resizeGotPlt :=
  modSec_alike h P.gotPlt (fun _ _ hs => by rw [h.eq]; exact growZero_rel _ hs)

theorem expand_rel (sched : Sched) (h : Alike w w') {s s' : Section} (hs : s'.blank = s.blank) : (expand sched w' s').blank = (expand sched w s).blank := by
  cases h with
  | mk ss h =>
    have hk := (Section.blank_iff.1 hs).2.2.2.1
    unfold expand
    rw [hk]
    cases s.kind <;> dsimp only
    case plain => exact hs
    case shstr => exact setSize_rel _ hs
    case symstr => exact setSize_rel _ hs
    case dynstr => exact setSize_rel _ hs
    case copyRel => exact setSize_rel _ hs
    case plt => exact setSize_rel _ (Section.addChunk_rel hs rfl)
    case hash => exact setSize_rel _ (Section.addChunk_rel hs rfl)
    case gnuHash => exact setSize_rel _ (Section.addChunk_rel hs rfl)
    case symtab => exact Section.sh_rel (setSize_rel w.symtab.totalLen (Section.addChunk_rel (d := w.symtab.chunk sched.symIter) hs rfl)) fun x => { x with sh_info := u32 w.symtab.numLocals }
    case dynsym => exact Section.sh_rel (setSize_rel w.dynsym.totalLen (Section.addChunk_rel (d := w.dynsym.chunk sched.dynIter) hs rfl)) fun x => { x with sh_info := u32 w.dynsym.numLocals }

theorem expandDynsym_alike (sched : Sched) (h : Alike w w') : Alike (w.expandDynsym sched) (w'.expandDynsym sched) :=
  modSec_alike h P.dynsym fun _ _ hs => expand_rel sched h hs

theorem fillHashes_near (sched : Sched) (h : Alike w w') : Kin Alike (w.fillHashes sched) (w'.fillHashes sched) := by
  cases h with
  | mk ss h => exact (Kin.refl _).bind fun a b hab => (Kin.refl _).bind fun c d hcd => .ok (by rw [← hab, ← hcd]; exact .mk _ h)

theorem expandRest_alike (sched : Sched) (h : Alike w w') : Alike (w.expandRest sched) (w'.expandRest sched) := by
  refine .intro (by rw [h.eq]; rfl) (map_map_rel (fun a b hab => ?_) h.secs)
  rw [(Section.blank_iff.1 hab).2.2.2.2.1]
  split
  · exact expand_rel sched h hab
  · exact hab

theorem genDynRels_near (sched : Sched) (h : Alike w w') : Kin Alike (w.genDynRels sched) (w'.genDynRels sched) := by
  cases h with
  | mk ss h =>
    refine (Kin.refl _).bind fun a b hab => ?_
    rw [← hab]
    exact .ok (modSec_alike (modSec_alike (by exact .mk _ h) _ fun _ _ hs => setSize_rel _ hs) _ fun _ _ hs => setSize_rel _ hs)

theorem sizeDynamic_near (h : Alike w w') : Kin Alike w.sizeDynamic w'.sizeDynamic := by
  cases h with
  | mk ss h =>
    refine Kin.bind (Kin.foldM' (R := Eq) (g := Section.blank) (fun n m s s' hn hs => ?_) rfl h) fun n m hn => ?_
    · subst hn
      have := (Section.blank_iff.1 hs).2.2.2.2.1
      unfold secName
      rw [this]
      exact Kin.refl _
    · subst hn
      exact .ok (modSec_alike (by exact .mk _ h) _ fun _ _ hs => setSize_rel _ hs)

theorem mapIdx_rel {α β : Type} {g : α → β} {F : Nat → α → α} (hF : ∀ i a b, g b = g a → g (F i b) = g (F i a)) {l l' : List α} (h : l'.map g = l.map g) :
    (l'.mapIdx F).map g = (l.mapIdx F).map g := by
  apply List.ext_getElem?
  intro i
  have := getElem_rel h i
  simp only [List.getElem?_map, List.getElem?_mapIdx]
  cases h1 : l[i]? with
  | none =>
    cases h2 : l'[i]? with
    | none => rfl
    | some b => rw [h1, h2] at this; cases this
  | some a =>
    cases h2 : l'[i]? with
    | none => rw [h1, h2] at this; cases this
    | some b =>
      rw [h1, h2] at this
      exact congrArg some (hF i _ _ (Option.some.inj this))

theorem sortSecs_near {sched : Sched} (ho : sched.Oblivious) (h : Alike w w') : Kin Alike (w.sortSecs sched) (w'.sortSecs sched) := by
  cases h with
  | mk ss h =>
    unfold sortSecs
    dsimp only
    cases hs : w.sections with
    | nil => exact .left _
    | cons a l =>
      cases ss with
      | nil => exact .right _
      | cons b l' =>
        rw [hs, List.map_cons, List.map_cons, List.cons.injEq] at h
        refine .ok (.mk _ (mapIdx_rel (fun i s s' hab => ?_) ?_))
        · obtain ⟨h1, h2, h3, h4, h5, h6⟩ := Section.blank_iff.1 hab
          exact Section.blank_iff.2 ⟨h1, rfl, h3, h4, h5, h6⟩
        · rw [List.map_cons, List.map_cons, h.1, ← stableSort_map (f := Section.blank) (le := sectionLe) (le' := sectionLe) (fun _ _ => rfl), ← stableSort_map (f := Section.blank) (le := sectionLe) (le' := sectionLe) (fun _ _ => rfl), ho l l' h.2]

/-! ### Layout -/

theorem setChunkAddrs_blank : ∀ (l : List Chunk) (b : Nat), Section.setChunkAddrs b (l.map Chunk.blank) = (Section.setChunkAddrs b l).map Chunk.blank
  | [], _ => rfl
  | c :: l, b => by
    simp only [List.map_cons, Section.setChunkAddrs]
    rw [← setChunkAddrs_blank l]
    simp [Chunk.blank]

theorem setAddress_blank (s : Section) (a : Nat) : s.blank.setAddress a = (s.setAddress a).blank := by
  unfold Section.setAddress Section.blank
  dsimp only
  rw [setChunkAddrs_blank]

theorem loadHeader_blank (st : LayoutState) (s : Section) : loadHeader st s.blank = ((loadHeader st s).1, (loadHeader st s).2.1.blank, (loadHeader st s).2.2) := by
  simp only [loadHeader, setAddress_blank]
  rfl

theorem placeSection_blank (st : LayoutState) (s : Section) : placeSection st s.blank = ((placeSection st s).1, (placeSection st s).2.blank) := by
  unfold placeSection
  by_cases c1 : s.sh.sh_flags ≠ st.flags
  · rw [if_pos (show s.blank.sh.sh_flags ≠ st.flags from c1), if_pos c1]
    by_cases c2 : hasFlag s.sh.sh_flags SHF_ALLOC = true
    · dsimp only
      rw [if_pos (show hasFlag s.blank.sh.sh_flags SHF_ALLOC = true from c2), if_pos c2, loadHeader_blank]
      rfl
    · dsimp only
      rw [if_neg (show ¬ hasFlag s.blank.sh.sh_flags SHF_ALLOC = true from c2), if_neg c2]
      rfl
  · rw [if_neg (show ¬ s.blank.sh.sh_flags ≠ st.flags from c1), if_neg c1]
    unfold placeInFile
    cases hc : st.cur with
    | none => simp only [hc]; rfl
    | some ph =>
      simp only [hc]
      rw [← setAddress_blank]
      rfl

theorem layoutStep_blank (f : SectionHeader → Bool) (st : LayoutState) (s : Section) : layoutStep f st s.blank = ((layoutStep f st s).1, (layoutStep f st s).2.blank) := by
  unfold layoutStep
  rw [placeSection_blank]
  have e : ∀ x : Section, x.blank.sh = x.sh := fun _ => rfl
  simp only [e]
  cases pType (f (placeSection st s).2.sh) (placeSection st s).2.sh <;> rfl

theorem layoutLoop_blank (f : SectionHeader → Bool) : ∀ (l : List Section) (st : LayoutState),
    layoutLoop f st (l.map Section.blank) = ((layoutLoop f st l).1, (layoutLoop f st l).2.map Section.blank)
  | [], _ => rfl
  | s :: l, st => by
    simp only [List.map_cons, layoutLoop, layoutStep_blank]
    rw [layoutLoop_blank f l]

theorem countLoads_blank : ∀ (l : List Section) (n : Nat), countLoads n (l.map Section.blank) = countLoads n l
  | [], _ => rfl
  | s :: l, n => by
    simp only [List.map_cons, countLoads, countLoads_blank l]
    rfl

theorem genProgramHeaders_alike (h : Alike w w') : Alike w.genProgramHeaders w'.genProgramHeaders := by
  cases h with
  | mk ss h =>
    have hd := drop_rel h 1
    have hc : countProgramHeaders ss = countProgramHeaders w.sections := by
      unfold countProgramHeaders
      rw [← countLoads_blank, hd, countLoads_blank]
    have hl := fun f st => (layoutLoop_blank f (ss.drop 1) st).symm.trans ((congrArg _ hd).trans (layoutLoop_blank f (w.sections.drop 1) st))
    unfold genProgramHeaders generateProgramHeaders
    dsimp only
    rw [hc]
    have hl := hl (fun sh => w.shstr.name sh.sh_name == some b!".interp")
      { fileOffset := w.fileOffset, pVaddr := w.pVaddr, extra := some (countProgramHeaders w.sections * w.eh.e_phentsize + sizeofHeader), flags := 0, cur := none, phs := [] }
    rw [Prod.mk.injEq] at hl
    rw [hl.1]
    refine .mk _ ?_
    rw [List.map_append, List.map_append, hl.2, take_rel h 1]

theorem addDynEntries_near (h : Alike w w') : Kin Alike w.addDynEntries w'.addDynEntries := by
  cases h with
  | mk ss h =>
    refine Kin.bind (Kin.foldM' (R := Eq) (g := Section.blank) (fun n m s s' hn hs => ?_) rfl h) fun n m hn => ?_
    · subst hn
      have := (Section.blank_iff.1 hs).2.2.2.2.1
      unfold secName
      rw [this]
      exact Kin.refl _
    · subst hn
      exact .ok (.mk _ h)

theorem _root_.Dld.Kin.of_panics {α β : Type} {R : α → β → Prop} {x : M α} {y : M β} (hx : Panics x) (hy : Panics y) (h : ∀ a b, x = .ok a → y = .ok b → R a b) : Kin R x y := by
  cases x with
  | error e => rw [hx e rfl]; exact .left _
  | ok a =>
    cases y with
    | error e => rw [hy e rfl]; exact .right _
    | ok b => exact .ok (h a b rfl rfl)

theorem setChunk0_rel {s s' : Section} (h : s'.blank = s.blank) {d d' : Bytes} (hd : d'.length = d.length) : (setChunk0 d' s').blank = (setChunk0 d s).blank :=
  Section.modify_rel h 0 fun c c' hc => by
    obtain ⟨h1, h2, h3, h4⟩ := Chunk.blank_iff.1 hc
    exact Chunk.blank_iff.2 ⟨h1, hd, h3, h4⟩

theorem patchPlt_near (sched : Sched) (h : Alike w w') : Kin Alike (w.patchPlt sched) (w'.patchPlt sched) := by
  unfold patchPlt
  refine (sec_near h _).bind fun s s' hs => (sec_near h _).bind fun t t' ht => ?_
  obtain ⟨_, _, _, _, s5, s6⟩ := Section.blank_iff.1 hs
  obtain ⟨_, _, _, _, t5, t6⟩ := Section.blank_iff.1 ht
  refine (Kin.unwrap (R := fun a b : Chunk => b.blank = a.blank) fun a b ha hb => ?_).bind fun c c' hc => ?_
  · have := getElem_rel s6 0
    rw [ha, hb] at this
    exact Option.some.inj this
  refine (Kin.unwrap (R := fun a b : Chunk => b.blank = a.blank) fun a b ha hb => ?_).bind fun d d' hd => ?_
  · have := getElem_rel t6 0
    rw [ha, hb] at this
    exact Option.some.inj this
  have hc := (Chunk.blank_iff.1 hc).2.1
  have hd := (Chunk.blank_iff.1 hd).2.1
  rw [s5, t5]
  refine Kin.bind (R := fun a b : Bytes => b.length = a.length) (.of_panics (patchPltHeader_panics _ _ _) (patchPltHeader_panics _ _ _) fun a b ha hb => ?_) fun a b hab => ?_
  · rw [patchPltHeader_length ha, patchPltHeader_length hb, hc]
  have e : w'.symtab = w.symtab ∧ w'.gotPlt = w.gotPlt := by rw [h.eq]; exact ⟨rfl, rfl⟩
  rw [e.1, e.2]
  refine Kin.bind (R := fun x y : Bytes × Bytes => y.1.length = x.1.length ∧ y.2.length = x.2.length)
    (Kin.loop (fun x y r hxy => .of_panics (patchPltEntry_panics _ _ _ _ _) (patchPltEntry_panics _ _ _ _ _) fun u v hu hv => ?_) ⟨hab, hd⟩) fun x y hxy => ?_
  · obtain ⟨u1, u2⟩ := patchPltEntry_length hu
    obtain ⟨v1, v2⟩ := patchPltEntry_length hv
    exact ⟨by rw [u1, v1, hxy.1], by rw [u2, v2, hxy.2]⟩
  · exact .ok (modSec_alike (modSec_alike h _ fun _ _ h => setChunk0_rel h hxy.1) _ fun _ _ h => setChunk0_rel h hxy.2)

theorem assignSectionAddresses_near {sched : Sched} (ho : sched.Oblivious) (h : Alike w w') : Kin Alike (w.assignSectionAddresses sched) (w'.assignSectionAddresses sched) := by
  unfold assignSectionAddresses
  refine (scanRelocations_near h).bind fun a b h => ?_
  refine (fillHashes_near sched (expandDynsym_alike sched (resizeGotPlt_alike (resizeGot_alike h)))).bind fun a b h => ?_
  refine (genDynRels_near sched (expandRest_alike sched h)).bind fun a b h => ?_
  refine (sizeDynamic_near h).bind fun a b h => ?_
  refine (sortSecs_near ho h).bind fun a b h => ?_
  refine (addDynEntries_near (genProgramHeaders_alike h)).bind fun a b h => ?_
  exact patchPlt_near sched h

theorem boundSymbols_near (st : StringTable) (n m : Name) (t : SymbolTable) {s s' : Section} (h : s'.blank = s.blank) :
    Kin (fun x y : SymbolTable × Section => y.1 = x.1 ∧ y.2.blank = x.2.blank) (boundSymbols st n m t s) (boundSymbols st n m t s') := by
  unfold boundSymbols
  dsimp only
  cases st.get n with
  | none =>
    refine Kin.bind (R := fun a b : Section => b.blank = a.blank) (.ok h) fun a b h => ?_
    cases st.get m with
    | none => exact .ok ⟨rfl, h⟩
    | some e =>
      dsimp only
      rw [Section.sizeOnDisk_rel h, chunks_length (Section.blank_iff.1 h).2.2.2.2.2]
      refine (Kin.refl _).bind fun x y hxy => ?_
      exact .ite (.err _) ((Section.modifyChunk_rel h _ fun _ _ hc => Chunk.addSymbol_rel hc _).bind fun a b h => .ok ⟨rfl, h⟩)
  | some e =>
    refine Kin.bind (R := fun a b : Section => b.blank = a.blank) (Section.modifyChunk_rel h 0 fun _ _ hc => Chunk.addSymbol_rel hc _) fun a b h => ?_
    cases st.get m with
    | none => exact .ok ⟨rfl, h⟩
    | some e =>
      dsimp only
      rw [Section.sizeOnDisk_rel h, chunks_length (Section.blank_iff.1 h).2.2.2.2.2]
      refine (Kin.refl _).bind fun x y hxy => ?_
      exact .ite (.err _) ((Section.modifyChunk_rel h _ fun _ _ hc => Chunk.addSymbol_rel hc _).bind fun a b h => .ok ⟨rfl, h⟩)

theorem handleSpecialSymbols_near (h : Alike w w') : Kin Alike w.handleSpecialSymbols w'.handleSpecialSymbols := by
  unfold handleSpecialSymbols
  refine (sec_near h _).bind fun s s' hs => (sec_near h _).bind fun t t' ht => (sec_near h _).bind fun u u' hu => ?_
  obtain ⟨_, s2, _, _, s5, _⟩ := Section.blank_iff.1 hs
  obtain ⟨_, _, _, _, t5, _⟩ := Section.blank_iff.1 ht
  obtain ⟨_, _, _, _, u5, _⟩ := Section.blank_iff.1 hu
  cases h with
  | mk ss h =>
    dsimp only
    rw [s2, s5, t5, u5]
    refine Kin.bind (Kin.mapAccumM (g := Section.blank) (k := Section.blank) (fun st a b hab => ?_) h) fun x y hxy => ?_
    · unfold specialStep
      rw [(Section.blank_iff.1 hab).2.2.2.2.1]
      exact .ite (.ok ⟨rfl, hab⟩) (.ite (boundSymbols_near _ _ _ _ hab) (.ite (boundSymbols_near _ _ _ _ hab) (.ok ⟨rfl, hab⟩)))
    · rw [hxy.1]
      refine (sec_near (by exact .mk _ hxy.2) _).bind fun c c' hc => ?_
      obtain ⟨_, c2, _, _, c5, _⟩ := Section.blank_iff.1 hc
      rw [c2, c5]
      exact .ok (.mk _ hxy.2)

theorem foldl_rel {α β τ : Type} {g : α → β} {F : τ → α → τ} (hF : ∀ t a b, g b = g a → F t b = F t a) : ∀ {l l' : List α} (t : τ), l'.map g = l.map g →
    l'.foldl F t = l.foldl F t
  | [], [], _, _ => rfl
  | a :: l, b :: l', t, h => by
    rw [List.map_cons, List.map_cons, List.cons.injEq] at h
    rw [List.foldl_cons, List.foldl_cons, hF t a b h.1]
    exact foldl_rel hF _ h.2
  | [], _ :: _, _, h => nomatch h
  | _ :: _, [], _, h => nomatch h

theorem relocatable_rel (n : List Nat) {s s' : Section} (h : s'.blank = s.blank) : relocatable n s' = relocatable n s := by
  unfold relocatable
  rw [(Section.blank_iff.1 h).2.2.2.2.1]

theorem handleRelocations_near (h : Alike w w') : Kin Alike w.handleRelocations w'.handleRelocations := by
  unfold handleRelocations
  refine (sec_near h _).bind fun s s' hs => (sec_near h _).bind fun t t' ht => (sec_near h _).bind fun u u' hu => (sec_near h _).bind fun v v' hv => ?_
  obtain ⟨_, _, _, _, s5, _⟩ := Section.blank_iff.1 hs
  obtain ⟨_, _, _, _, t5, _⟩ := Section.blank_iff.1 ht
  obtain ⟨_, _, _, _, u5, _⟩ := Section.blank_iff.1 hu
  obtain ⟨_, _, _, _, v5, _⟩ := Section.blank_iff.1 hv
  cases h with
  | mk ss h =>
    dsimp only
    have hd := drop_rel h 1
    rw [s5, t5, u5, v5, foldl_rel (fun t a b hab => Section.patchSymbolValues_rel hab t) _ (filter_rel (fun a b hab => relocatable_rel _ hab) hd)]
    refine Kin.bind (Kin.mapAccumM (g := Section.blank) (k := Section.blank) (fun _ a b hab => ?_) hd) fun x y hxy => ?_
    · rw [relocatable_rel _ hab]
      refine .ite ?_ (.ok ⟨rfl, hab⟩)
      obtain ⟨h1, h2, h3, h4, h5, h6⟩ := Section.blank_iff.1 hab
      refine Kin.bind (Kin.mapAccumM (g := Chunk.blank) (k := Chunk.blank) (fun _ c c' hc => ?_) h6) fun x y hxy => .ok ⟨rfl, Section.blank_iff.2 ⟨h1, h2, h3, h4, h5, hxy.2⟩⟩
      refine Kin.bind (R := fun a b : Chunk => b.blank = a.blank) (.of_panics (applyRelocations_panics _ _ _ _ _) (applyRelocations_panics _ _ _ _ _) fun x y hx hy => ?_) fun x y hxy => .ok ⟨rfl, hxy⟩
      obtain ⟨x1, x2⟩ := applyRelocations_ok hx
      obtain ⟨y1, y2⟩ := applyRelocations_ok hy
      obtain ⟨c1, c2, c3, c4⟩ := Chunk.blank_iff.1 hc
      rw [x1, y1]
      exact Chunk.blank_iff.2 ⟨c1, by show y.data.length = x.data.length; rw [x2, y2, c2], c3, c4⟩
    · refine .ok (.mk _ ?_)
      rw [List.map_append, List.map_append, hxy.2, take_rel h 1]

/-- the first half of `computeTables` -/
def tablesFirst (w : Writer) : Writer :=
  ((((w.modSec P.shstr (·.addChunk w.shstr.chunk)).modSec P.symstr (·.addChunk w.symstr.chunk)).modSec P.dynstr (·.addChunk w.dynstr.chunk)).modSec P.dynamic
    (·.addChunk (serVec serDyn w.dynEntries)))

/-- the second half of `computeTables` -/
def tablesSecond (w : Writer) : M Writer := do
  let gotSec ← w.sec P.got
  let gotPltSec ← w.sec P.gotPlt
  let copyRelSec ← w.sec P.copyRel
  let rebase := rebaseRela gotSec.sh.sh_addr gotPltSec.sh.sh_addr copyRelSec.sh.sh_addr
  let w := { w with dynRels := w.dynRels.map rebase, pltRels := w.pltRels.map rebase }
  let w := w.modSec P.relaDyn (·.addChunk (serVec serRela w.dynRels))
  .ok (w.modSec P.relaPlt (·.addChunk (serVec serRela w.pltRels)))

theorem computeTables_near (h : Alike w w') : Kin Alike w.computeTables w'.computeTables := by
  have h4 : Alike w.tablesFirst w'.tablesFirst := by
    cases h with
    | mk ss h =>
      exact modSec_alike (modSec_alike (modSec_alike (modSec_alike (.mk _ h) _ fun _ _ h => Section.addChunk_rel h rfl) _ fun _ _ h => Section.addChunk_rel h rfl) _ fun _ _ h => Section.addChunk_rel h rfl) _
        fun _ _ h => Section.addChunk_rel h rfl
  show Kin Alike (tablesSecond w.tablesFirst) (tablesSecond w'.tablesFirst)
  revert h4
  generalize w.tablesFirst = a
  generalize w'.tablesFirst = b
  intro h4
  refine (sec_near h4 _).bind fun s s' hs => (sec_near h4 _).bind fun t t' ht => (sec_near h4 _).bind fun u u' hu => ?_
  obtain ⟨_, _, _, _, s5, _⟩ := Section.blank_iff.1 hs
  obtain ⟨_, _, _, _, t5, _⟩ := Section.blank_iff.1 ht
  obtain ⟨_, _, _, _, u5, _⟩ := Section.blank_iff.1 hu
  rw [s5, t5, u5]
  cases h4 with
  | mk ss h => exact .ok (modSec_alike (modSec_alike (by exact .mk _ h) _ fun _ _ h => Section.addChunk_rel h rfl) _ fun _ _ h => Section.addChunk_rel h rfl)

theorem finishHeader_near (h : Alike w w') : Kin Alike w.finishHeader w'.finishHeader := by
  cases h with
  | mk ss h =>
    have hl : ss.length = w.sections.length := by simpa using congrArg List.length h
    have key : ∀ entry, Kin Alike (w.sec P.shstr >>= fun shstrSec =>
          let eh := { w.eh with e_entry := entry, e_shnum := u16 w.sections.length, e_phnum := u16 w.programHeaders.length, e_shstrndx := u16 shstrSec.index, e_shoff := w.fileOffset }
          match w.programHeaders with
          | [] => .error .panic
          | ph :: phs =>
            if eh.e_phnum * eh.e_phentsize ≥ 65536 then .error .panic
            else
              let size := eh.e_phnum * eh.e_phentsize
              let ph := { ph with
                p_offset := eh.e_phoff, p_memsz := size, p_filesz := size
                p_vaddr := eh.e_phoff + w.startPVaddr, p_paddr := eh.e_phoff + w.startPVaddr }
              .ok { w with eh, programHeaders := ph :: phs })
        (({ w with sections := ss } : Writer).sec P.shstr >>= fun shstrSec =>
          let eh := { w.eh with e_entry := entry, e_shnum := u16 ss.length, e_phnum := u16 w.programHeaders.length, e_shstrndx := u16 shstrSec.index, e_shoff := w.fileOffset }
          match w.programHeaders with
          | [] => .error .panic
          | ph :: phs =>
            if eh.e_phnum * eh.e_phentsize ≥ 65536 then .error .panic
            else
              let size := eh.e_phnum * eh.e_phentsize
              let ph := { ph with
                p_offset := eh.e_phoff, p_memsz := size, p_filesz := size
                p_vaddr := eh.e_phoff + w.startPVaddr, p_paddr := eh.e_phoff + w.startPVaddr }
              .ok { w with sections := ss, eh, programHeaders := ph :: phs }) := by
      intro entry
      refine (sec_near (.mk _ h) _).bind fun s s' hs => ?_
      obtain ⟨_, s2, _⟩ := Section.blank_iff.1 hs
      dsimp only
      rw [hl, s2]
      cases w.programHeaders with
      | nil => exact .err _
      | cons ph phs => exact .ite (.err _) (.ok (.mk _ h))
    unfold finishHeader
    dsimp only
    cases w.symstr.get b!"_start" with
    | none => exact key _
    | some e =>
      refine Kin.bind (R := Eq) ?_ fun x y hxy => ?_
      · exact Kin.refl _
      · subst hxy
        exact key _

theorem computeSections_near {sched : Sched} (ho : sched.Oblivious) (h : Alike w w') : Kin Alike (w.computeSections sched) (w'.computeSections sched) := by
  unfold computeSections
  refine (assignSectionAddresses_near ho h).bind fun a b h => ?_
  refine (handleSpecialSymbols_near h).bind fun a b h => ?_
  refine (handleRelocations_near h).bind fun a b h => ?_
  exact (computeTables_near h).bind fun a b h => finishHeader_near h

end Writer

/-! ## The driver -/

/-- lists related element by element -/
inductive Pairs {α β : Type} (R : α → β → Prop) : List α → List β → Prop where
  | nil : Pairs R [] []
  | cons {a b l l'} : R a b → Pairs R l l' → Pairs R (a :: l) (b :: l')

theorem Pairs.snoc {α β : Type} {R : α → β → Prop} {l : List α} {l' : List β} (h : Pairs R l l') {a : α} {b : β} (hab : R a b) : Pairs R (l ++ [a]) (l' ++ [b]) := by
  induction h with
  | nil => exact .cons hab .nil
  | cons h _ ih => exact .cons h ih

theorem Kin.pairs {α β σ τ : Type} {R : σ → τ → Prop} {Q : α → β → Prop} {F : σ → α → M σ} {F' : τ → β → M τ} (h : ∀ s t a b, R s t → Q a b → Kin R (F s a) (F' t b)) {l : List α} {l' : List β}
    (hl : Pairs Q l l') : ∀ {s : σ} {t : τ}, R s t → Kin R (Dld.foldM' F s l) (Dld.foldM' F' t l') := by
  induction hl with
  | nil => intro s t hs; exact .ok hs
  | cons hab _ ih =>
    intro s t hs
    rw [foldM'_cons, foldM'_cons]
    exact (h _ _ _ _ hs hab).bind fun s t hst => ih hst

namespace Linker
open Writer

/-- the same object up to the contents of its sections -/
inductive ObjAlike (o : Obj) : Obj → Prop where
  | mk (d : Bytes) : d.length = o.data.length → ObjAlike o { o with data := d }

/-- objects and writers that are alike -/
def Both (x y : Obj × Writer) : Prop := ObjAlike x.1 y.1 ∧ Alike x.2 y.2

variable {env env' : Env}

theorem sectionData_near {d d' : Bytes} (h : d'.length = d.length) (sh : SectionHeader) :
    Kin (fun a b : Option Bytes => b.map List.length = a.map List.length) (sectionData d sh) (sectionData d' sh) := by
  unfold sectionData
  rw [h]
  refine .ite (.ok rfl) (.ite (.ok ?_) (.err _))
  simp [h]

theorem processSection_near {x y : Obj × Writer} (h : Both x y) (e : SectionHeader × Nat) : Kin Both (processSection x e) (processSection y e) := by
  obtain ⟨o, w⟩ := x
  obtain ⟨o', w'⟩ := y
  obtain ⟨h1, h2⟩ := h
  cases h1 with
  | mk d hd =>
    unfold processSection
    refine .ite (.ok ⟨.mk d hd, h2⟩) ?_
    refine (Kin.refl _).bind fun n m hn => ?_
    subst hn
    refine (sectionData_near hd _).bind fun a b hab => ?_
    refine (pushSection_near h2 n e.1 hab).bind fun ⟨u1, u2⟩ ⟨v1, v2⟩ ⟨h1, h2⟩ => ?_
    have h2 : v2 = u2 := h2
    subst h2
    exact .ok ⟨.mk d hd, h1⟩

theorem processSections_near {o o' : Obj} {w w' : Writer} (h : ObjAlike o o') (hw : Alike w w') : Kin Both (processSections o w) (processSections o' w') := by
  have e : o'.elf = o.elf := by cases h; rfl
  unfold processSections
  rw [e]
  exact Kin.loop (fun x y a hxy => processSection_near hxy a) ⟨h, hw⟩

theorem processSymbol_near {x y : Obj × Writer} (h : Both x y) (s : Sym) : Kin Both (processSymbol x s) (processSymbol y s) := by
  obtain ⟨o, w⟩ := x
  obtain ⟨o', w'⟩ := y
  obtain ⟨h1, h2⟩ := h
  cases h1 with
  | mk d hd =>
    unfold processSymbol
    refine (Kin.refl _).bind fun n m hn => ?_
    subst hn
    refine (addSymbol_near h2 _ _ _ _).bind fun ⟨u1, u2⟩ ⟨v1, v2⟩ ⟨h1, h2⟩ => ?_
    have h2 : v2 = u2 := h2
    subst h2
    exact .ok ⟨.mk d hd, h1⟩

theorem processSymbols_near {o o' : Obj} {w w' : Writer} (h : ObjAlike o o') (hw : Alike w w') : Kin Both (processSymbols o w) (processSymbols o' w') := by
  have e : o'.elf = o.elf := by cases h; rfl
  unfold processSymbols
  rw [e]
  exact Kin.loop (fun x y a hxy => processSymbol_near hxy a) ⟨h, hw⟩

theorem processReloc_near {o o' : Obj} {w w' : Writer} (h : ObjAlike o o') (hw : Alike w w') (i : Nat) (rel : InReloc) :
    Kin Alike (processReloc o i w rel) (processReloc o' i w' rel) := by
  cases h with
  | mk d hd =>
    unfold processReloc
    refine .ite (.ok hw) ?_
    refine (Kin.refl _).bind fun s t hst => ?_
    subst hst
    refine .ite (.err _) ?_
    dsimp only
    split
    · exact .ok hw
    · split
      · exact .ok hw
      · exact addRelocation_near hw _ _ _ _

theorem processRelocations_near {o o' : Obj} {w w' : Writer} (h : ObjAlike o o') (hw : Alike w w') : Kin Alike (processRelocations o w) (processRelocations o' w') := by
  have e : o'.elf = o.elf := by cases h; rfl
  unfold processRelocations
  rw [e]
  exact Kin.loop (R := Alike) (fun x y (a : Nat × List InReloc) hxy => Kin.loop (R := Alike) (l := a.2) (fun u v r huv => processReloc_near h huv a.1 r) hxy) hw

/-- the same up to the contents of the sections, if there is an object -/
def OptAlike (a b : Option Obj) : Prop := (a = none ∧ b = none) ∨ ∃ o o', a = some o ∧ b = some o' ∧ ObjAlike o o'

theorem toElfObject_near (p : Path) {d d' : Bytes} (h : SameShape env env' d d') : Kin OptAlike (toElfObject env p d) (toElfObject env' p d') := by
  unfold toElfObject
  rw [h.2]
  refine (Kin.refl _).bind fun a b hab => ?_
  subst hab
  refine .ok ?_
  split
  · exact .inr ⟨_, _, rfl, rfl, .mk d' h.1⟩
  · exact .inl ⟨rfl, rfl⟩

theorem linkMember_near (p : Path) {ar ar' : ArFile} (h : ∀ m, (ar.get m = none ∧ ar'.get m = none) ∨ ∃ d d', ar.get m = some d ∧ ar'.get m = some d' ∧ SameShape env env' d d')
    {w w' : Writer} (hw : Alike w w') (m : Bytes) : Kin Alike (linkMember env p ar w m) (linkMember env' p ar' w' m) := by
  unfold linkMember
  rcases h m with ⟨h1, h2⟩ | ⟨d, d', h1, h2, h3⟩
  · rw [h1, h2]; exact .err _
  · rw [h1, h2]
    refine (toElfObject_near p h3).bind fun a b hab => ?_
    rcases hab with ⟨rfl, rfl⟩ | ⟨o, o', rfl, rfl, ho⟩
    · exact .err _
    · refine (processSections_near ho hw).bind fun x y hxy => ?_
      refine (processSymbols_near hxy.1 hxy.2).bind fun x y hxy => ?_
      exact processRelocations_near hxy.1 hxy.2

/-- writers that are alike, with the same list -/
def Paired {α : Type} (x y : Writer × α) : Prop := Alike x.1 y.1 ∧ y.2 = x.2

theorem matchDynsym_near (elf : ElfFile) (p : Path) (n : Name) {x y : Writer × Bool} (h : Paired x y) (s : Sym) : Kin Paired (matchDynsym elf p n x s) (matchDynsym elf p n y s) := by
  unfold matchDynsym
  refine (Kin.refl _).bind fun a b hab => ?_
  subst hab
  refine .ite ?_ (.ok h)
  refine (addDynSymbol_near h.1 _ _ _).bind fun u v huv => ?_
  refine (Kin.refl _).bind fun a b hab => ?_
  subst hab
  exact .ok ⟨addNeeded_alike huv.1 _, rfl⟩

theorem searchLibEntry_near (elf : ElfFile) (p : Path) {x y : Writer × List SymbolRef} (h : Paired x y) (r : SymbolRef) :
    Kin Paired (searchLibEntry elf p x r) (searchLibEntry elf p y r) := by
  unfold searchLibEntry
  rw [symbolName_alike h.1]
  refine (Kin.refl _).bind fun a b hab => ?_
  subst hab
  cases a with
  | none => exact .ok h
  | some n =>
    refine (Kin.loop (R := Paired) (fun u v s huv => matchDynsym_near elf p n huv s) (s := (x.1, false)) (t := (y.1, false)) ⟨h.1, rfl⟩).bind fun ⟨u1, u2⟩ ⟨v1, v2⟩ ⟨h1, h2⟩ => ?_
    have h2 : v2 = u2 := h2
    subst h2
    rw [h.2]
    exact .ok ⟨h1, rfl⟩

theorem searchLib_near (o : Nat → List SymbolRef → List SymbolRef) {x y : Writer × List SymbolRef} (h : Paired x y) (e : Path × Nat)
    (hp : (env.read e.1 = none ∧ env'.read e.1 = none) ∨ ∃ d d', env.read e.1 = some d ∧ env'.read e.1 = some d' ∧ env'.parseElf d' = env.parseElf d) :
    Kin Paired (searchLib env o x e) (searchLib env' o y e) := by
  unfold searchLib
  dsimp only
  rcases hp with ⟨h1, h2⟩ | ⟨d, d', h1, h2, h3⟩
  · rw [h1, h2]; exact .err _
  · rw [h1, h2]
    show Kin Paired (unwrap (env.parseElf d) >>= _) (unwrap (env'.parseElf d') >>= _)
    rw [h3]
    refine (Kin.refl _).bind fun a b hab => ?_
    subst hab
    rw [h.2]
    refine (Kin.loop (R := Paired) (fun u v s huv => searchLibEntry_near a e.1 huv s) (s := (x.1, [])) (t := (y.1, [])) ⟨h.1, rfl⟩).bind fun ⟨u1, u2⟩ ⟨v1, v2⟩ ⟨h1, h2⟩ => ?_
    have h2 : v2 = u2 := h2
    subst h2
    exact .ok ⟨h1, rfl⟩

theorem Kin.loopMem {α σ τ : Type} {R : σ → τ → Prop} {F : σ → α → M σ} {F' : τ → α → M τ} : ∀ {l : List α} (_ : ∀ s t, ∀ a ∈ l, R s t → Kin R (F s a) (F' t a)) {s : σ} {t : τ}
    (_ : R s t), Kin R (Dld.foldM' F s l) (Dld.foldM' F' t l)
  | [], _, _, _, hs => .ok hs
  | a :: l, h, s, t, hs => by
    rw [foldM'_cons, foldM'_cons]
    exact (h s t a (by simp) hs).bind fun s t hst => Kin.loopMem (fun s t a ha => h s t a (by simp [ha])) hst

theorem findInLibs_near {l : Linker} (hE : SameShapes env env' l) (o : Nat → List SymbolRef → List SymbolRef) (u : List SymbolRef) {w w' : Writer} (h : Alike w w') :
    Kin Paired (findInLibs env l o u w) (findInLibs env' l o u w') :=
  Kin.loopMem (fun _ _ e he hst => searchLib_near o hst e (hE.libs e.1 (by
    have := List.mem_zipIdx he
    rw [this.2.2]
    exact List.getElem_mem _))) ⟨h, rfl⟩

theorem searchArchive_near (oU : Nat → List SymbolRef → List SymbolRef) (oM : Nat → List Bytes → List Bytes) {x y : Writer × List SymbolRef} (h : Paired x y) (e : Path × Nat)
    (hp : (env.read e.1 = none ∧ env'.read e.1 = none) ∨ ∃ d d', env.read e.1 = some d ∧ env'.read e.1 = some d' ∧ SameArchive env env' d d') :
    Kin Paired (searchArchive env oU oM x e) (searchArchive env' oU oM y e) := by
  unfold searchArchive
  dsimp only
  rcases hp with ⟨h1, h2⟩ | ⟨d, d', h1, h2, h3⟩
  · rw [h1, h2]; exact .err _
  · rw [h1, h2]
    show Kin Paired (orErr e.1 .input (env.parseAr d) >>= _) (orErr e.1 .input (env'.parseAr d') >>= _)
    rcases h3 with ⟨g1, g2⟩ | ⟨ar, ar', g1, g2, g3, g4⟩
    · rw [g1, g2]; exact .err _
    · rw [g1, g2, h.2]
      simp only [orErr, ok_bind]
      refine Kin.bind (R := Eq) ?_ fun u v huv => ?_
      · have : searchArEntry ar' y.1 = searchArEntry ar x.1 := by
          funext st r
          unfold searchArEntry ArFile.memberOfSymbol
          rw [symbolName_alike h.1, g3]
        rw [this]
        exact Kin.refl _
      · subst huv
        exact (Kin.loop (R := Alike) (fun a b m hab => linkMember_near e.1 g4 hab m) h.1).bind (S := Paired) fun a b hab => .ok ⟨hab, rfl⟩

theorem processArchives_near {l : Linker} (hE : SameShapes env env' l) {sched : LinkSched} (hv : sched.Valid) (n : Nat) (u : List SymbolRef) {w w' : Writer} (h : Alike w w') :
    Kin Paired (processArchives env l sched n u w) (processArchives env' l sched n u w') :=
  Kin.loopMem (fun _ _ e he hst => searchArchive_near _ _ hst e (hE.archives e.1 ((hv.archives _).mem_iff.1 (by
    have := List.mem_zipIdx he
    rw [this.2.2]
    exact List.getElem_mem _)))) ⟨h, rfl⟩

theorem resolveRound_near {l : Linker} (hE : SameShapes env env' l) {sched : LinkSched} (hv : sched.Valid) (n : Nat) (u : List SymbolRef) {w w' : Writer} (h : Alike w w') :
    Kin Paired (resolveRound env l sched n u w) (resolveRound env' l sched n u w') := by
  refine (findInLibs_near hE _ u h).bind fun ⟨u1, u2⟩ ⟨v1, v2⟩ ⟨h1, h2⟩ => ?_
  have h2 : v2 = u2 := h2
  subst h2
  refine (processArchives_near hE hv n _ h1).bind fun ⟨u1, u2⟩ ⟨v1, v2⟩ ⟨h1, h2⟩ => ?_
  have h2 : v2 = u2 := h2
  subst h2
  exact .ok ⟨h1, rfl⟩

theorem readAll_near {l : Linker} (hE : SameShapes env env' l) : ∀ {ps : List Path}, (∀ p ∈ ps, p ∈ l.objects) →
    Kin (Pairs fun x y : Path × Bytes => y.1 = x.1 ∧ SameShape env env' x.2 y.2) (readAll env ps) (readAll env' ps)
  | [], _ => .ok .nil
  | p :: ps, h => by
    unfold readAll
    rcases hE.objects p (h p (by simp)) with ⟨h1, h2⟩ | ⟨d, d', h1, h2, h3⟩
    · rw [h1, h2]; exact .err _
    · rw [h1, h2]
      exact (readAll_near hE fun q hq => h q (by simp [hq])).bind fun a b hab => .ok (.cons ⟨rfl, h3⟩ hab)

theorem loadAll_near {l : Linker} (hE : SameShapes env env' l) {w w' : Writer} (h : Alike w w') : Kin Alike (loadAll env l w) (loadAll env' l w') := by
  unfold loadAll
  refine (readAll_near hE fun _ h => h).bind fun a b hab => ?_
  refine (Kin.pairs (R := fun x y : List Obj × Writer => Pairs ObjAlike x.1 y.1 ∧ Alike x.2 y.2) (fun s t x y hst hxy => ?_) hab ⟨.nil, h⟩).bind fun x y hxy => ?_
  · unfold loadObjects
    rw [hxy.1]
    refine (toElfObject_near _ hxy.2).bind fun a b hab => ?_
    rcases hab with ⟨rfl, rfl⟩ | ⟨o, o', rfl, rfl, ho⟩
    · exact .ok hst
    · exact (processSections_near ho hst.2).bind fun x y hxy => .ok ⟨hst.1.snoc hxy.1, hxy.2⟩
  · refine Kin.pairs (fun s t x y hst hxy => ?_) hxy.1 hxy.2
    unfold loadSymbols
    exact (processSymbols_near hxy hst).bind fun x y hxy => processRelocations_near hxy.1 hxy.2

/-- `Kin` for links that may not end -/
inductive KinO {α β : Type} (R : α → β → Prop) : Option (M α) → Option (M β) → Prop where
  | none : KinO R none none
  | some {x y} : Kin R x y → KinO R (some x) (some y)
  | left (y) : KinO R (some (.error .panic)) y
  | right (x) : KinO R x (some (.error .panic))

theorem resolveLoop_near {l : Linker} (hE : SameShapes env env' l) {sched : LinkSched} (hv : sched.Valid) : ∀ (fuel n : Nat) (u : List SymbolRef) {w w' : Writer}, Alike w w' →
    KinO Alike (resolveLoop env l sched fuel n u w) (resolveLoop env' l sched fuel n u w')
  | 0, _, _, _, _, _ => .none
  | fuel + 1, n, u, w, w', h => by
    have hr := resolveRound_near hE hv n u h
    unfold resolveLoop
    revert hr
    generalize resolveRound env l sched n u w = x
    generalize resolveRound env' l sched n u w' = y
    intro hr
    cases hr with
    | err e => exact .some (.err e)
    | left y => exact .left _
    | right x => exact .right _
    | ok hab =>
      rename_i a b
      dsimp only
      rw [hab.2]
      split
      · exact .some (.ok hab.1)
      · rw [undefinedSymbols_alike hab.1]
        exact resolveLoop_near hE hv fuel (n + 1) _ hab.1

theorem gathered_near {l : Linker} (hE : SameShapes env env' l) {sched : LinkSched} (hv : sched.Valid) (fuel : Nat) :
    KinO Alike (gathered env l sched fuel) (gathered env' l sched fuel) := by
  unfold gathered
  cases Writer.new l.options with
  | error e => exact .some (.err e)
  | ok w =>
    dsimp only
    have hr := loadAll_near hE (Alike.refl w)
    revert hr
    generalize loadAll env l w = x
    generalize loadAll env' l w = y
    intro hr
    cases hr with
    | err e => exact .some (.err e)
    | left y => exact .left _
    | right x => exact .right _
    | ok hab =>
      dsimp only
      rw [undefinedSymbols_alike hab]
      exact resolveLoop_near hE hv fuel 0 _ hab

end Linker
end Dld
