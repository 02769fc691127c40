import Verif.Model.Disk
/-! # Writing to a file system that becomes full

`write_to_disk` (`src/elf.rs` 950-1000) writes piece by piece and finalizes every section just before it writes it. Every piece is written with `write_all`
and every error is an `unwrap`: in `write_to_disk` (964-970, 983) and in `serialize` (`src/serialize.rs` 17-30, 37-44, 51-60). -/
namespace Dld

/-- The bytes that `write_all` has put into a file when it ends: `room` is the size the file can have. `write_all` writes what fits and fails at the first
byte that does not. -/
def writeAll (room : Nat) (file : Bytes) : List Bytes → Bytes × Bool
  | [] => (file, true)
  | piece :: pieces =>
    if file.length + piece.length ≤ room then writeAll room (file ++ piece) pieces
    else (file ++ piece.take (room - file.length), false)

namespace Writer

/-- The section loop of `write_to_disk` (`src/elf.rs` 958-986) as the pieces it writes, with the finalized sections, or nothing if it panics on the way. -/
def sectionPieces (sched : Sched) (w : Writer) : Nat → List Section → List Bytes × Option (List Section)
  | _, [] => ([], some [])
  | offset, s :: ss =>
    let pad := List.replicate (s.sh.sh_offset - offset) (0 : UInt8)
    let offset := max offset s.sh.sh_offset
    match finalizeSec sched w s with
    | .error _ => ([pad], none)
    | .ok s =>
      let (pieces, secs) := sectionPieces sched w (offset + s.sizeOnDisk) ss
      (pad :: s.chunks.map (·.data) ++ pieces, secs.map (s :: ·))

/-- `write_to_disk` (`src/elf.rs` 950-1000) up to the permissions, as the pieces it writes, and whether it gets there. The fields of a header, which are
written one by one, are one piece here. -/
def pieces (sched : Sched) (w : Writer) : List Bytes × Bool :=
  let head := serHeader w.eh :: w.programHeaders.map serProgramHeader
  let offset := sizeofHeader + w.programHeaders.length * sizeofProgramHeader
  match sectionPieces sched w offset w.sections with
  | (body, none) => (head ++ body, false)
  | (body, some secs) => (head ++ body ++ secs.map (fun s => serSectionHeader s.sh), true)

end Writer

namespace Linker

/-- `link` (`src/lib.rs` 228-269) up to the call of `write_to_disk`: the writer it is called with -/
def toWrite (env : Env) (l : Linker) (sched : LinkSched) (fuel : Nat) : Option (M Writer) :=
  match Writer.new l.options with
  | .error e => some (.error e)
  | .ok w =>
    match loadAll env l w with
    | .error e => some (.error e)
    | .ok w =>
      match resolveLoop env l sched fuel 0 (w.undefinedSymbols sched.symIter) w with
      | none => none
      | some (.error e) => some (.error e)
      | some (.ok w) => some do
        let w ← w.computeSections sched.toSched
        let undefined := w.undefinedSymbols sched.symIter
        if undefined ≠ [] then
          let names ← undefinedNames w undefined
          .error (.err l.options.output (.undefined names))
        else .ok w

end Linker

/-- What a link does to the file system, including what it leaves when it panics -/
inductive End
  | ok (d : Disk)
  | err (path : Path) (kind : ErrKind) (d : Disk)
  | panic (d : Disk)

/-- `Linker::link` (`src/lib.rs` 225-271) with its effect on a file system in which the output can have `room` bytes. Unlike `linkOn` it says what is left
after a panic; there is no handler that would remove the output. -/
def Linker.linkIn (room : Nat) (parseElf : Bytes → Option ElfFile) (parseAr : Bytes → Option ArFile) (d : Disk) (l : Linker) (sched : LinkSched)
    (fuel : Nat) : Option End :=
  if d.writable l.options.output then
    let d1 := d.create l.options.output
    match Linker.toWrite { read := d1.files, parseElf, parseAr } l sched fuel with
    | none => none
    | some (.error (.err p k)) => some (.err p k d1)
    | some (.error .panic) => some (.panic d1)
    | some (.ok w) =>
      let (pieces, ends) := w.pieces sched.toSched
      let (file, complete) := writeAll room [] pieces
      let d2 := d1.write l.options.output file
      if complete && ends && d1.owned l.options.output then some (.ok (d2.chmod l.options.output 0o755)) else some (.panic d2)
  else some (.err l.options.output .input d)

end Dld
