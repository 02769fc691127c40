import Verif.Model.Linker
/-! # The file system during a link: `File::create` in `Writer::new` -/
namespace Dld

/-- The files the crate reads and the one it writes. Paths are compared as they are given: links in the file
system, by which two paths name one file, are not modelled. -/
structure Disk where
  files : Path → Option Bytes
  /-- whether the user may create the file or, if it exists, write to it -/
  writable : Path → Bool
  /-- the permission bits of the files -/
  mode : Path → Nat := fun _ => 0o644
  /-- the permission bits of new files: `0o666` without those of the umask -/
  created : Nat := 0o644
  /-- whether the file, if it exists, belongs to the user, who may then change its permissions -/
  owned : Path → Bool := fun _ => true

/-- the contents of a file are replaced -/
def Disk.write (d : Disk) (p : Path) (b : Bytes) : Disk := { d with files := fun q => if q = p then some b else d.files q }

/-- `set_permissions` (`src/elf.rs` 997-999) -/
def Disk.chmod (d : Disk) (p : Path) (m : Nat) : Disk := { d with mode := fun q => if q = p then m else d.mode q }

/-- `File::create` (`src/elf.rs` 174): an existing file is emptied and keeps its permissions and its owner, a new one gets those of new files and belongs
to the user. -/
def Disk.create (d : Disk) (p : Path) : Disk :=
  match d.files p with
  | some _ => d.write p []
  | none => { (d.write p []).chmod p d.created with owned := fun q => if q = p then true else d.owned q }

/-- What a link does to the file system; nothing is said about the file system after a panic. -/
inductive Outcome
  | ok (d : Disk)
  | err (path : Path) (kind : ErrKind) (d : Disk)
  | panic

/-- `Linker::link` (`src/lib.rs` 225-271) with its effect on the file system: `Writer::new` creates the output file, which empties it
(`src/elf.rs` 173-174, called in `src/lib.rs` 226-227), before the inputs are read, and `write_to_disk` (`src/elf.rs` 950-1000) writes the file
when no error is reported any more, and then makes it executable, which panics if it belongs to somebody else (`src/elf.rs` 999). -/
def Linker.linkOn (parseElf : Bytes → Option ElfFile) (parseAr : Bytes → Option ArFile) (d : Disk) (l : Linker) (sched : LinkSched)
    (fuel : Nat) : Option Outcome :=
  if d.writable l.options.output then
    let d1 := d.create l.options.output
    match Linker.link { read := d1.files, parseElf, parseAr } l sched fuel with
    | none => none
    | some (.ok file) =>
      if d1.owned l.options.output then some (.ok ((d1.write l.options.output file).chmod l.options.output 0o755)) else some .panic
    | some (.error (.err p k)) => some (.err p k d1)
    | some (.error .panic) => some .panic
  else some (.err l.options.output .input d)

end Dld
