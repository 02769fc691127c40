import Verif.Model.Full
import Verif.Props.Modes
import Verif.Lemmas.DemoLink
/-! # A file system that becomes full (C155) -/
namespace Dld

theorem writeAll_eq (room : Nat) (pieces : List Bytes) (file : Bytes) (h : file.length ≤ room) :
    writeAll room file pieces = ((file ++ pieces.flatten).take room, decide ((file ++ pieces.flatten).length ≤ room)) := by
  induction pieces generalizing file with
  | nil => simp [writeAll, List.take_of_length_le h, h]
  | cons p ps ih =>
    rw [writeAll]
    split
    · next hp =>
      rw [ih _ (by simpa using hp), List.flatten_cons, List.append_assoc]
    · next hp =>
      have hd : ¬ (file ++ (p :: ps).flatten).length ≤ room := by
        simp only [List.flatten_cons, List.length_append] at hp ⊢; omega
      rw [decide_eq_false hd, List.flatten_cons]
      refine Prod.ext ?_ rfl
      show file ++ p.take (room - file.length) = (file ++ (p ++ ps.flatten)).take room
      rw [List.take_append, List.take_of_length_le h, List.take_append, show room - file.length - p.length = 0 by omega, List.take_zero, List.append_nil]

namespace Writer

theorem sectionPieces_ok {sched : Sched} {w : Writer} {offset : Nat} {ss secs : List Section} {b : Bytes}
    (h : writeSections sched w offset ss = .ok (b, secs)) :
    (sectionPieces sched w offset ss).1.flatten = b ∧ (sectionPieces sched w offset ss).2 = some secs := by
  induction ss generalizing offset secs b with
  | nil => cases h; exact ⟨rfl, rfl⟩
  | cons s ss ih =>
    simp only [writeSections, bind_ok] at h
    obtain ⟨s', h1, ⟨b', ss'⟩, h2, h3⟩ := h
    cases h3
    obtain ⟨g1, g2⟩ := ih h2
    rw [sectionPieces]
    simp only [h1, g2, Option.map_some, and_true]
    simp only [List.cons_append, List.flatten_cons, List.flatten_append, g1, List.append_assoc, List.flatMap_def]

theorem sectionPieces_error {sched : Sched} {w : Writer} {offset : Nat} {ss : List Section} {e : Fail}
    (h : writeSections sched w offset ss = .error e) : (sectionPieces sched w offset ss).2 = none := by
  induction ss generalizing offset e with
  | nil => cases h
  | cons s ss ih =>
    rw [sectionPieces]
    rw [writeSections] at h
    cases h1 : finalizeSec sched w s with
    | error e => rfl
    | ok s' =>
      simp only [h1, ok_bind] at h ⊢
      cases h2 : writeSections sched w (max offset s.sh.sh_offset + s'.sizeOnDisk) ss with
      | error e' => rw [ih h2]; rfl
      | ok x => rw [h2] at h; cases h

theorem serVec_flatten {α : Type} (f : α → Bytes) (l : List α) : (l.map f).flatten = serVec f l := by
  simp [serVec, List.flatMap_def]

/-- the pieces are the file -/
theorem pieces_ok {sched : Sched} {w : Writer} {b : Bytes} {secs : List Section} (h : writeToDisk sched w = .ok (b, secs)) :
    (pieces sched w).1.flatten = b ∧ (pieces sched w).2 = true := by
  simp only [writeToDisk, bind_ok] at h
  obtain ⟨⟨body, ss⟩, h1, h2⟩ := h
  cases h2
  obtain ⟨g1, g2⟩ := sectionPieces_ok h1
  unfold pieces
  simp only
  cases hp : sectionPieces sched w (sizeofHeader + w.programHeaders.length * sizeofProgramHeader) w.sections with
  | mk x y =>
    rw [hp] at g1 g2
    simp only at g1 g2
    subst g1 g2
    refine ⟨?_, rfl⟩
    simp only [List.cons_append, List.flatten_cons, List.flatten_append, serVec_flatten, List.append_assoc]

theorem pieces_error {sched : Sched} {w : Writer} {e : Fail} (h : writeToDisk sched w = .error e) : (pieces sched w).2 = false := by
  unfold writeToDisk at h
  simp only at h
  cases h1 : writeSections sched w (sizeofHeader + w.programHeaders.length * sizeofProgramHeader) w.sections with
  | ok x => rw [h1] at h; cases h
  | error e' =>
    have := sectionPieces_error h1
    unfold pieces
    simp only
    cases hp : sectionPieces sched w (sizeofHeader + w.programHeaders.length * sizeofProgramHeader) w.sections with
    | mk x y =>
      rw [hp] at this
      simp only at this
      subst this
      rfl

end Writer

namespace Linker
variable {parseElf : Bytes → Option ElfFile} {parseAr : Bytes → Option ArFile} {d d' : Disk} {l : Linker} {sched : LinkSched} {fuel room : Nat} {env : Env}

/-- the link is what is written -/
theorem link_toWrite (env : Env) (l : Linker) (sched : LinkSched) (fuel : Nat) :
    link env l sched fuel = (toWrite env l sched fuel).map fun r => r >>= fun w => (w.writeToDisk sched.toSched) >>= fun x => .ok x.1 := by
  unfold link toWrite
  cases Writer.new l.options with
  | error e => rfl
  | ok w =>
    simp only
    cases loadAll env l w with
    | error e => rfl
    | ok w =>
      simp only
      cases resolveLoop env l sched fuel 0 (w.undefinedSymbols sched.symIter) w with
      | none => rfl
      | some r =>
        cases r with
        | error e => rfl
        | ok w =>
          simp only [Option.map_some, Option.some.injEq]
          unfold finish
          cases w.computeSections sched.toSched with
          | error e => rfl
          | ok w =>
            simp only [ok_bind]
            split
            · cases undefinedNames w (w.undefinedSymbols sched.symIter) <;> rfl
            · rfl

theorem toWrite_ok {file : Bytes} (h : link env l sched fuel = some (.ok file)) :
    ∃ w, toWrite env l sched fuel = some (.ok w) ∧ (w.pieces sched.toSched).1.flatten = file ∧ (w.pieces sched.toSched).2 = true := by
  rw [link_toWrite] at h
  cases ht : toWrite env l sched fuel with
  | none => rw [ht] at h; cases h
  | some r =>
    rw [ht] at h
    simp only [Option.map_some, Option.some.injEq] at h
    cases r with
    | error e => cases h
    | ok w =>
      simp only [ok_bind, bind_ok] at h
      obtain ⟨⟨b, secs⟩, h1, h2⟩ := h
      cases h2
      exact ⟨w, rfl, Writer.pieces_ok h1⟩

/-- **C155** is violated whenever the output does not fit: the linker crashes instead of reporting an error, and leaves the part of the executable that fits,
which can be run if the output of an earlier link was there. -/
theorem C155_full_violated {file : Bytes} (hw : d.writable l.options.output = true)
    (h : link { read := (d.create l.options.output).files, parseElf, parseAr } l sched fuel = some (.ok file)) (hr : room < file.length) :
    ∃ d', linkIn room parseElf parseAr d l sched fuel = some (.panic d') ∧ d'.files l.options.output = some (file.take room) ∧
      (d.Executable l.options.output → d'.Executable l.options.output) := by
  obtain ⟨w, h1, h2, h3⟩ := toWrite_ok h
  unfold linkIn
  rw [if_pos hw]
  simp only [h1]
  have := writeAll_eq room (w.pieces sched.toSched).1 [] (Nat.zero_le _)
  rw [List.nil_append, h2] at this
  cases hp : w.pieces sched.toSched with
  | mk x y =>
    rw [hp] at this
    simp only at this ⊢
    rw [this]
    simp only [show ¬ file.length ≤ room by omega, decide_false, Bool.false_and, Bool.false_eq_true, if_false]
    refine ⟨_, rfl, by simp [Disk.write], fun hx => ⟨by simp [Disk.write], ?_⟩⟩
    show (d.create l.options.output).mode l.options.output &&& 0o111 ≠ 0
    rw [Disk.create_mode, if_neg fun h => hx.1 h.2]
    exact hx.2

/-- **C155**, what holds: the linker succeeds only if the whole executable has been written. Whatever happens, no other file changes. If there is
an executable to write, and the output was not executable before, then what is left is the executable and can be run, or is the beginning of it and cannot be run.
What is missing: errors instead of crashes, and outputs that were executable before (`C155_full_violated`). -/
theorem C155_written_partial {o : End} (h : linkIn room parseElf parseAr d l sched fuel = some o) :
    let env : Env := { read := (d.create l.options.output).files, parseElf, parseAr }
    (∀ d', o = .ok d' → ∃ file, link env l sched fuel = some (.ok file) ∧ file.length ≤ room ∧ d'.files l.options.output = some file ∧
      d'.mode l.options.output = programMode) ∧
    (∀ d', (o = .ok d' ∨ o = .panic d' ∨ ∃ p k, o = .err p k d') → (∀ q, q ≠ l.options.output → d'.files q = d.files q ∧ d'.mode q = d.mode q) ∧
      (∀ file, link env l sched fuel = some (.ok file) → d.writable l.options.output = true → ∃ part, d'.files l.options.output = some part ∧ part <+: file) ∧
      (d.created &&& 0o111 = 0 → ¬ d.Executable l.options.output → d'.Executable l.options.output → o = .ok d')) := by
  intro env
  unfold linkIn at h
  by_cases hw : d.writable l.options.output = true
  · rw [if_pos hw] at h
    simp only at h
    have hmode : ∀ q, q ≠ l.options.output → (d.create l.options.output).mode q = d.mode q := fun q hq => by
      rw [Disk.create_mode, if_neg fun h => hq h.1]
    have hfile : ∀ q, q ≠ l.options.output → (d.create l.options.output).files q = d.files q := fun q hq => by
      rw [Disk.create_files]; simp [Disk.write, hq]
    have hself : (d.create l.options.output).files l.options.output = some [] := by
      rw [Disk.create_files]; simp [Disk.write]
    have hex : d.created &&& 0o111 = 0 → ¬ d.Executable l.options.output → (d.create l.options.output).mode l.options.output &&& 0o111 = 0 := by
      intro hc hx
      rw [Disk.create_mode]
      split
      · exact hc
      · next hn =>
        by_cases hf : d.files l.options.output = none
        · exact absurd ⟨rfl, hf⟩ hn
        · exact Classical.byContradiction fun hm => hx ⟨hf, hm⟩
    cases ht : toWrite env l sched fuel with
    | none => rw [ht] at h; cases h
    | some r =>
      rw [ht] at h
      cases r with
      | error e =>
        have hl : ∀ file, link env l sched fuel ≠ some (.ok file) := by
          intro file hl
          obtain ⟨w, h1, _⟩ := toWrite_ok hl
          rw [ht] at h1
          cases h1
        have hd : o = .panic (d.create l.options.output) ∨ ∃ p k, o = .err p k (d.create l.options.output) := by
          cases e with
          | err p k => cases h; exact .inr ⟨p, k, rfl⟩
          | panic => cases h; exact .inl rfl
        refine ⟨fun d' e => ?_, fun d' hd' => ?_⟩
        · subst e
          rcases hd with e | ⟨_, _, e⟩ <;> cases e
        · have : d' = d.create l.options.output := by
            rcases hd with rfl | ⟨p, k, rfl⟩
            · rcases hd' with e | e | ⟨_, _, e⟩ <;> cases e
              rfl
            · rcases hd' with e | e | ⟨_, _, e⟩ <;> cases e
              rfl
          subst this
          exact ⟨fun q hq => ⟨hfile q hq, hmode q hq⟩, fun file hf => absurd hf (hl file), fun hc hx hx' => absurd (hex hc hx) hx'.2⟩
      | ok w =>
        simp only at h
        have hwa := writeAll_eq room (w.pieces sched.toSched).1 [] (Nat.zero_le _)
        rw [List.nil_append] at hwa
        cases hp : w.pieces sched.toSched with
        | mk x y =>
          rw [hp] at hwa h
          simp only at hwa h
          rw [hwa] at h
          simp only at h
          have hlink : ∀ file, link env l sched fuel = some (.ok file) → file = x.flatten := by
            intro file hl
            obtain ⟨w', h1, h2, h3⟩ := toWrite_ok hl
            rw [ht] at h1
            cases h1
            rw [hp] at h2
            exact h2.symm
          have hpre : ∀ file, link env l sched fuel = some (.ok file) → x.flatten.take room <+: file := by
            intro file hl
            rw [hlink file hl]
            exact List.take_prefix _ _
          split at h
          · next hc =>
            cases h
            simp only [Bool.and_eq_true, decide_eq_true_eq] at hc
            obtain ⟨⟨hc1, hc2⟩, hc3⟩ := hc
            refine ⟨fun d' e => ?_, fun d' hd' => ?_⟩
            · cases e
              refine ⟨x.flatten, ?_, hc1, by simp [Disk.chmod, Disk.write, List.take_of_length_le hc1], by simp [Disk.chmod, programMode]⟩
              rw [link_toWrite, ht]
              simp only [Option.map_some, ok_bind]
              cases hwr : w.writeToDisk sched.toSched with
              | error e =>
                have := Writer.pieces_error hwr
                rw [hp] at this
                have this : y = false := this
                rw [this] at hc2
                cases hc2
              | ok r =>
                obtain ⟨b, secs⟩ := r
                have := (Writer.pieces_ok hwr).1
                rw [hp] at this
                rw [← this]
                rfl
            · rcases hd' with e | e | ⟨_, _, e⟩ <;> cases e
              refine ⟨fun q hq => ⟨?_, ?_⟩, fun file hl _ => ⟨_, if_pos rfl, hpre file hl⟩, fun _ _ _ => rfl⟩
              · show (if q = l.options.output then _ else (d.create l.options.output).files q) = _
                rw [if_neg hq, hfile q hq]
              · show (if q = l.options.output then _ else (d.create l.options.output).mode q) = _
                rw [if_neg hq, hmode q hq]
          · cases h
            refine ⟨fun d' e => by (cases e), fun d' hd' => ?_⟩
            rcases hd' with e | e | ⟨_, _, e⟩ <;> cases e
            refine ⟨fun q hq => ⟨?_, hmode q hq⟩, fun file hl _ => ⟨_, if_pos rfl, hpre file hl⟩, fun hc hx hx' => absurd (hex hc hx) hx'.2⟩
            show (if q = l.options.output then _ else (d.create l.options.output).files q) = _
            rw [if_neg hq, hfile q hq]
  · rw [if_neg hw] at h
    cases h
    refine ⟨fun d' e => by (cases e), fun d' hd' => ?_⟩
    rcases hd' with e | e | ⟨_, _, e⟩ <;> cases e
    exact ⟨fun q _ => ⟨rfl, rfl⟩, fun _ _ h => absurd h hw, fun _ hx hx' => absurd hx' hx⟩

/-- **C155** (enough room): if the executable fits, the link does what it does on a file system without limits. -/
theorem C155_room {file : Bytes} (hw : d.writable l.options.output = true) (ho : d.Own l.options.output)
    (h : link { read := (d.create l.options.output).files, parseElf, parseAr } l sched fuel = some (.ok file)) (hr : file.length ≤ room) :
    ∃ d', linkIn room parseElf parseAr d l sched fuel = some (.ok d') ∧ linkOn parseElf parseAr d l sched fuel = some (.ok d') ∧
      d'.files l.options.output = some file := by
  obtain ⟨w, h1, h2, h3⟩ := toWrite_ok h
  have hown := (Disk.create_owned d l.options.output).2 ho
  unfold linkIn linkOn
  rw [if_pos hw, if_pos hw]
  simp only [h1, h, hown, if_true]
  have := writeAll_eq room (w.pieces sched.toSched).1 [] (Nat.zero_le _)
  rw [List.nil_append, h2] at this
  cases hp : w.pieces sched.toSched with
  | mk x y =>
    rw [hp] at this h3
    simp only at this h3 ⊢
    rw [this, h3]
    simp only [hr, decide_true, Bool.and_self, if_true, List.take_of_length_le hr]
    exact ⟨_, rfl, rfl, by simp [Disk.chmod, Disk.write]⟩

/-! ### The demonstration with little room -/

/-- the files of the demonstration, and the executable of an earlier link -/
def smallDisk : Disk :=
  { files := fun p => if p = demoLinker.options.output then some b!"old" else demoEnv.read p
    writable := fun _ => true
    mode := fun p => if p = demoLinker.options.output then 0o755 else 0o644 }

def leaves (P : Disk → Bool) : Option End → Nat
  | some (.ok d) => if P d then 1 else 0
  | some (.panic d) => if P d then 2 else 0
  | _ => 0

/-- with room for 1000 bytes the linker crashes and leaves the first 1000 bytes of the executable, which can be run; with enough room it succeeds -/
example : leaves (fun d => (d.files demoLinker.options.output).any (fun f => f.length == 1000) && d.mode demoLinker.options.output == 0o755)
      (linkIn 1000 demoEnv.parseElf demoEnv.parseAr smallDisk demoLinker LinkSched.id 5) = 2 ∧
    leaves (fun d => (d.files demoLinker.options.output).any (fun f => f.length > 1000) && d.mode demoLinker.options.output == 0o755)
      (linkIn 20000 demoEnv.parseElf demoEnv.parseAr smallDisk demoLinker LinkSched.id 5) = 1 := by
  constructor <;> decide +kernel

end Linker
end Dld
