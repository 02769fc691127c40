import Verif.Spec.History
/-! # The section locks

Every section is behind a `parking_lot::RwLock` (`src/elf/section.rs` 15). The functions of the
writer run on one thread, so a lock can only be waited for by the thread that already holds it, and
then for ever. The definitions here list the lock operations each function performs, in order, with
the guards released where Rust drops them: at the end of the statement for a temporary, at the end
of the block for a variable, and at the end of the whole `for` or `if let` for a temporary in its
head. Sections are identified by `ptr`. -/
namespace Dld

/-- One operation on a lock: `read()`, `write()`, `WGuard::downgrade`, and the drop of a guard. -/
inductive LockEv where
  | read (p : Nat)
  | write (p : Nat)
  | downgrade (p : Nat)
  | unread (p : Nat)
  | unwrite (p : Nat)
  deriving DecidableEq, Repr

/-- The guards a thread holds: the section, and whether it is a write guard. -/
abbrev Held := List (Nat × Bool)

/-- One operation; `none` when the thread would wait for a guard of its own. A write guard excludes
every other guard of the section; read guards exclude only write guards. -/
def LockEv.step (held : Held) : LockEv → Option Held
  | .read p => if (p, true) ∈ held then none else some ((p, false) :: held)
  | .write p => if (p, true) ∈ held ∨ (p, false) ∈ held then none else some ((p, true) :: held)
  | .downgrade p => some ((p, false) :: held.erase (p, true))
  | .unread p => some (held.erase (p, false))
  | .unwrite p => some (held.erase (p, true))

/-- A sequence of operations; `none` when the thread gets stuck. -/
def runLocks : Held → List LockEv → Option Held
  | held, [] => some held
  | held, e :: es =>
    match e.step held with
    | none => none
    | some held => runLocks held es

/-- `body` under a read guard -/
def rd (p : Nat) (body : List LockEv) : List LockEv := .read p :: (body ++ [.unread p])

/-- `body` under a write guard -/
def wr (p : Nat) (body : List LockEv) : List LockEv := .write p :: (body ++ [.unwrite p])

namespace Writer

/-- `Writer::new` (`src/elf.rs` 226) -/
def newLocks : List LockEv := wr P.interp []

/-- The calls. `push_section`: `src/elf.rs` 387-388, 408, and with trace logging the driver prints the
result (`src/lib.rs` 92-98 with `src/elf.rs` 59-66). `add_symbol`: 468-469 with 450. `add_dyn_symbol`:
488-489, 493, 496. `add_relocation`: 547. `add_needed`: 564-569. `undefined_symbols` (519) and
`symbol_name` (509) take one read guard; the guard the latter returns borrows the writer, so no other
call is made while it lives. They are left out. -/
def opLocks (trace : Bool) (w : Writer) : Op → List LockEv
  | .push name _ _ r =>
    let (e, _) := w.shstr.getOrCreate name
    wr P.shstr [] ++
      (if e.new then [] else
        match w.sections[e.index]? with
        | some s => wr s.ptr []
        | none => []) ++
      (if trace then rd r.ptr [] else [])
  | .sym s sec _ _ _ =>
    wr P.symstr (wr P.sym
      (match sec with
        | some sr => if s.st_shndx ≠ SHN_ABS then wr sr.ptr [] else []
        | none => []))
  | .dynsym _ name _ _ =>
    wr P.dynstr (wr P.dynsym []) ++
      rd P.symstr (if (w.symstr.get name).isSome then wr P.sym [] else [])
  | .reloc _ _ sr _ => wr sr.ptr []
  | .needed _ => wr P.dynstr []

/-- `scan_relocations` for one relocation (`src/elf.rs` 783-798). Whether the symbol is dynamic does not
change during the scan. -/
def scanRelocLocks (w : Writer) (e : Rela × SymbolRef) : List LockEv :=
  if u32 e.1.r_info = R_X86_64_PLT32 ∧ ((w.symtab.get e.2).bind (·.dynamic)).isSome then wr P.plt [] else []

/-- `scan_relocations` (`src/elf.rs` 759-807): the section's guard lives through the loop over its chunks,
that of `.symtab` through the loop over the relocations of a chunk. -/
def scanLocks (w : Writer) : List LockEv :=
  w.sections.flatMap fun s => wr s.ptr
    (s.chunks.flatMap fun c => wr P.sym (c.relocations.flatMap (scanRelocLocks w)))

/-- `resize_got_section`, `resize_got_plt_section` (`src/elf.rs` 577, 586) -/
def resizeLocks : List LockEv := wr P.got [] ++ wr P.gotPlt []

/-- Expanding the sections and filling the hash tables (`src/elf.rs` 816-829): the read guard `dyn_syms`
of `.dynsym` lives on until line 838. -/
def expandLocks (hs : HashStyle) (w : Writer) : List LockEv :=
  wr P.dynsym [] ++
  rd P.dynsym
    ((if wantsHash hs then wr P.hash [] else []) ++
     (if wantsGnuHash hs then wr P.gnuHash [] else []) ++
     w.sections.flatMap fun s =>
      rd s.ptr [] ++ (if s.sh.sh_type ≠ SHT_DYNSYM then wr s.ptr [] else []))

/-- The loop over the dynamic symbols (`src/elf.rs` 844-867) for one of them: `.copyrel` is locked for
objects. -/
def dynRelLocks (w : Writer) (k : Nat) : List LockEv :=
  match (AMap.get? w.symtab.symbols k).bind (·.dynamic) with
  | none => []
  | some d => if (w.dynsym.get d).any (·.isObject) then wr P.copyRel [] else []

/-- The dynamic relocations and the size of `.dynamic` (`src/elf.rs` 840-879): `symbols`, `dyn_syms` and
`section_names` are taken in this order; the first two are dropped in lines 871-872, the last at the end
of the block. -/
def dynLocks (sched : Sched) (w : Writer) : List LockEv :=
  [.write P.sym, .write P.dynsym, .read P.shstr] ++
  (sched.symIter (AMap.keys w.symtab.symbols)).flatMap (dynRelLocks w) ++
  wr P.relaDyn [] ++ wr P.relaPlt [] ++
  [.unwrite P.sym, .unwrite P.dynsym] ++
  w.sections.flatMap (fun s => rd s.ptr []) ++
  wr P.dynamic [] ++ [.unread P.shstr]

/-- `sort_sections` (`src/elf.rs` 750-757 with `section_cmp` 1220-1222): `cmps` are the sections the sort
compares, whichever these are. -/
def sortLocks (cmps : List (Nat × Nat)) (w : Writer) : List LockEv :=
  cmps.flatMap (fun e => rd e.1 (rd e.2 [])) ++ w.sections.flatMap fun s => wr s.ptr []

/-- `generate_program_headers` (`src/elf.rs` 1018-1088) with `count_program_headers` (1005-1006): the write
guard of each section is downgraded before the names are read. -/
def programLocks (w : Writer) : List LockEv :=
  (w.sections.drop 1).flatMap (fun s => rd s.ptr []) ++
  (w.sections.drop 1).flatMap fun s =>
    [.write s.ptr, .downgrade s.ptr] ++ rd P.shstr [] ++ [.unread s.ptr]

/-- `add_dyn_entries` (`src/elf.rs` 1090-1099 with 1171) -/
def entriesLocks (w : Writer) : List LockEv := w.sections.flatMap fun s => rd P.shstr (rd s.ptr [])

/-- `patch_plt_and_got_plt` (`src/elf.rs` 594-622) -/
def patchLocks : List LockEv := rd P.plt [] ++ rd P.gotPlt [] ++ wr P.plt (wr P.gotPlt (rd P.sym []))

/-- The loop body of `handle_special_symbols` (`src/elf.rs` 681-706) for a section that is visited: `.symtab`
is locked when the section is one of the two arrays and its end symbol is known. -/
def boundLocks (w : Writer) (s : Section) : List LockEv :=
  if w.shstr.shName b!".init_array" = some s.sh.sh_name then
    if (w.symstr.get b!"__init_array_end").isSome then wr P.sym [] else []
  else if w.shstr.shName b!".fini_array" = some s.sh.sh_name then
    if (w.symstr.get b!"__fini_array_end").isSome then wr P.sym [] else []
  else []

/-- `handle_special_symbols` (`src/elf.rs` 666-712): the guards of `.strtab` and `.shstrtab` live through
the whole function, which is why these two are skipped (by name). -/
def specialLocks (w : Writer) (skip : List Nat) : List LockEv :=
  rd P.symstr (rd P.shstr (
    rd P.gotPlt [] ++
    (match w.symstr.get b!"_GLOBAL_OFFSET_TABLE_" with
      | some e => wr P.sym (if (w.symtab.get (.named (u32 e.offset))).isSome then rd P.gotPlt [] else [])
      | none => []) ++
    rd P.symstr (rd P.shstr []) ++
    w.sections.flatMap (fun s =>
      rd s.ptr [] ++ (if s.sh.sh_name ∈ skip then [] else wr s.ptr (boundLocks w s))) ++
    rd P.copyRel (wr P.dynsym [])))

/-- `handle_relocations` (`src/elf.rs` 890-911): `.symtab` and `.dynsym` are skipped (by name). -/
def relocLocks (w : Writer) (names : List Nat) : List LockEv :=
  rd P.got [] ++ rd P.plt [] ++ rd P.sym (rd P.dynsym []) ++
  (w.sections.drop 1).flatMap (fun s =>
    rd s.ptr [] ++ (if relocatable names s then wr P.sym (wr s.ptr []) else [])) ++
  rd P.sym (rd P.dynsym ((w.sections.drop 1).flatMap fun s =>
    rd s.ptr [] ++ (if relocatable names s then wr s.ptr [] else [])))

/-- `compute_tables` (`src/elf.rs` 714-748): the guard of `.dynamic` lives to the end of the function. -/
def tableLocks : List LockEv :=
  rd P.shstr [] ++ wr P.shstr [] ++ rd P.symstr [] ++ wr P.symstr [] ++ rd P.dynstr [] ++ wr P.dynstr [] ++
  wr P.dynamic (rd P.got [] ++ rd P.gotPlt [] ++ rd P.copyRel [] ++ wr P.relaDyn [] ++ wr P.relaPlt [])

/-- The end of `compute_sections` (`src/elf.rs` 930-938) -/
def finishLocks (w : Writer) : List LockEv :=
  rd P.symstr (if (w.symstr.get b!"_start").isSome then rd P.sym [] else []) ++ rd P.shstr []

/-- `compute_sections` (`src/elf.rs` 921-948 with 809-888). Defined when none of its steps panics. -/
def computeLocks (hs : HashStyle) (sched : Sched) (cmps : List (Nat × Nat)) (w : Writer) : M (List LockEv) := do
  let w1 ← w.scanRelocations
  let w2 := (w1.resizeGot.resizeGotPlt).expandDynsym sched
  let w3 ← w2.fillHashes sched
  let w4 := w3.expandRest sched
  let w5 ← w4.genDynRels sched
  let w6 ← w5.sizeDynamic
  let w7 ← w6.sortSecs sched
  let w8 := w7.genProgramHeaders
  let w9 ← w8.addDynEntries
  let w10 ← w9.patchPlt sched
  let symstrSec ← w10.sec P.symstr
  let shstrSec ← w10.sec P.shstr
  let w11 ← w10.handleSpecialSymbols
  let symSec ← w11.sec P.sym
  let dynsymSec ← w11.sec P.dynsym
  let w12 ← w11.handleRelocations
  let w13 ← w12.computeTables
  .ok (scanLocks w ++ resizeLocks ++ expandLocks hs w3 ++ dynLocks sched w4 ++ sortLocks cmps w6 ++
    programLocks w7 ++ entriesLocks w8 ++ patchLocks ++
    specialLocks w10 [symstrSec.sh.sh_name, shstrSec.sh.sh_name] ++
    relocLocks w11 [symSec.sh.sh_name, dynsymSec.sh.sh_name] ++ tableLocks ++ finishLocks w13)

/-- `write_to_disk` (`src/elf.rs` 958-996): each section's guard lives through the loop body; with trace
logging the names are read under it (971-980), and `finalize` reads the linked section
(`src/elf/section.rs` 257-258). -/
def writeLocks (trace : Bool) (w : Writer) : List LockEv :=
  w.sections.flatMap (fun s => wr s.ptr
    ((if trace then rd P.shstr [] else []) ++
     (match s.link with
      | some p => rd p []
      | none => []))) ++
  w.sections.flatMap fun s => wr s.ptr []

/-- The calls, one after the other (`src/lib.rs` 217-262) -/
def opsLocks (trace : Bool) : Writer → List Op → M (List LockEv)
  | _, [] => .ok []
  | w, op :: ops => do
    let w' ← op.run w
    let rest ← opsLocks trace w' ops
    .ok (opLocks trace w op ++ rest)

/-- All lock operations of a link that gets as far as writing its file: `Writer::new`, the calls,
`compute_sections`, `write_to_disk`. -/
def linkLocks (trace : Bool) (opts : Options) (ops : List Op) (sched : Sched) (cmps : List (Nat × Nat)) :
    M (List LockEv) := do
  let w0 ← Writer.new opts
  let calls ← opsLocks trace w0 ops
  let w ← runOps opts ops
  let compute ← computeLocks opts.hashStyle sched cmps w
  let w' ← w.computeSections sched
  .ok (newLocks ++ calls ++ compute ++ writeLocks trace w')

end Writer
end Dld
