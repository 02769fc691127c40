import Verif.Model.Cli
import Verif.Model.Disk
/-! # The program: `main` of `src/main.rs` from the arguments to the exit status -/
namespace Dld

/-- the parts of a path between the separators -/
def splitPath : Bytes → List Bytes
  | [] => [[]]
  | c :: cs =>
    if c = 47 then [] :: splitPath cs
    else
      match splitPath cs with
      | [] => [[c]]
      | p :: ps => (c :: p) :: ps

/-- `Path::file_name` (std; used in `src/lib.rs` 178 and `src/elf.rs` 216): the last component, where empty parts and `.` are not
components, and no name if it is `..` or missing. -/
def fileName (p : Bytes) : Option Bytes :=
  match ((splitPath p).reverse.dropWhile fun c => c = [] || c = b!".").head? with
  | none => none
  | some c => if c = b!".." then none else some c

/-- a path from its text -/
def Path.of (p : Bytes) : Path := { full := p, file := fileName p }

namespace Cli

/-- The `Linker` built from the arguments (`src/main.rs` 57), with its `Options` (`src/main.rs` 30-40, `src/elf/options.rs` 81-91). -/
def toLinker (app : App) (found : Found) : Linker :=
  { options :=
      { output := Path.of app.output, buildId := app.buildId, hashStyle := app.hashStyle, ehFrameHdr := app.ehFrameHdr,
        emulation := app.emulation, dynamicLinker := Path.of app.dynamicLinker,
        sharedLibs := found.sharedLibs.map fun e => (Path.of e.1, e.2) }
    objects := found.objects.map Path.of
    archives := found.archives.map Path.of }

/-- What an error message says (the text printed behind `Error: `). -/
inductive Report where
  | arg (e : CliErr)
  /-- "Couldn't find library .." (`src/main.rs` 98) -/
  | notFound (lib : Bytes)
  /-- the `Display` of the linker's error: the path and the cause (`src/main.rs` 59, `src/error.rs` 34-38) -/
  | link (path : Bytes) (kind : ErrKind)
  deriving DecidableEq, Repr

/-- `println!("{}", HELP)` or `println!("Elf executable in: {}", ..)` (`src/main.rs` 46, 61) -/
inductive Printed where
  | help
  | executable (path : Bytes)
  deriving DecidableEq, Repr

/-- How the process ends, with the contents of the files then: `Ok(())` is exit status 0, `Err` is exit status 1 with the message on
standard error. Nothing is said about the files after a panic. -/
inductive Exit where
  | success (out : Printed) (files : Bytes → Option Bytes)
  | failure (message : Report) (files : Bytes → Option Bytes)
  | panic

/-- the file system as the linker sees it: every file belongs to the user -/
def diskOf (fs : Fs) (writable : Bytes → Bool) : Disk := { files := fun p => fs.read p.full, writable := fun p => writable p.full }

/-- `main` (`src/main.rs` 42-64). `none` when it has not ended within the given numbers of rounds (`parseFuel` of the script parser, `fuel` of
the loop over the scripts, `rounds` of the resolution loop). `dirs` and `sched` are the iteration orders of the hash tables. -/
def run (parseElf : Bytes → Option ElfFile) (parseAr : Bytes → Option ArFile) (fs : Fs) (writable : Bytes → Bool)
    (dirs : List Bytes → List Bytes) (sched : LinkSched) (parseFuel fuel rounds : Nat) (args : List Bytes) : Option Exit :=
  match main fs dirs parseFuel fuel args with
  | .running => none
  | .panic => some .panic
  | .help => some (.success .help fs.read)
  | .badArgs e => some (.failure (.arg e) fs.read)
  | .notFound lib => some (.failure (.notFound lib) fs.read)
  | .link app found =>
    match (toLinker app found).linkOn parseElf parseAr (diskOf fs writable) sched rounds with
    | none => none
    | some .panic => some .panic
    | some (.ok d) => some (.success (.executable app.output) fun p => d.files (Path.of p))
    | some (.err p k d) => some (.failure (.link p.full k) fun q => d.files (Path.of q))

end Cli
end Dld
