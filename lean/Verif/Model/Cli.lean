import Verif.Model.Elf
import Verif.Model.Script
/-! # `src/main.rs`: command line and search for inputs

Strings and paths are bytes. `std::env::args` yields UTF-8 strings.
-/
namespace Dld.Cli

/-- The error strings of `handle_linker_args`, by cause; and the panics. -/
inductive CliErr where
  /-- "Missing argument .. for 'opt'." -/
  | missing (opt : Bytes)
  /-- the `FromStr` error of the option's value -/
  | badValue (value : Bytes)
  /-- `canonicalize().unwrap()` (`src/main.rs` 182) -/
  | panic
  deriving DecidableEq, Repr

/-- The parts of `AppArgs` (`src/main.rs` 30-40) the arguments set. `search_paths` is a `HashSet`:
no duplicates, insertion order. -/
structure App where
  output : Bytes := b!"./out"
  buildId : Option BuildId := none
  hashStyle : HashStyle := .both
  ehFrameHdr : Bool := false
  emulation : Emulation := .elfX86_64
  dynamicLinker : Bytes := b!"/lib64/ld-linux-x86-64.so.2"
  searchPaths : List Bytes := []
  inputs : List (Bytes × Bool) := []
  help : Bool := false
  asNeeded : Bool := false
  deriving DecidableEq, Repr

/-- `HashSet::insert` -/
def setInsert (l : List Bytes) (x : Bytes) : List Bytes := if x ∈ l then l else l ++ [x]

/-- `arg.starts_with('-')`, which `arg.starts_with("--")` implies (`src/main.rs` 110) -/
def startsDash (s : Bytes) : Bool := s.head? == some 45

/-- The "special" arguments (`src/main.rs` 181-189); `canon` is `Path::canonicalize`. -/
def special (canon : Bytes → Option Bytes) (arg : Bytes) (app : App) : Except CliErr App :=
  match stripPrefix b!"-L" arg with
  | some dir =>
    match canon dir with
    | some d => .ok { app with searchPaths := setInsert app.searchPaths d }
    | none => .error .panic
  | none =>
    match stripPrefix b!"-l" arg with
    | some lib => .ok { app with inputs := app.inputs ++ [(lib, app.asNeeded)] }
    | none =>
      match stripPrefix b!"--hash-style=" arg with
      | some style =>
        match HashStyle.fromStr style with
        | some h => .ok { app with hashStyle := h }
        | none => .error (.badValue style)
      | none => .ok { app with inputs := app.inputs ++ [(arg, app.asNeeded)] }

/-- `handle_linker_args` (`src/main.rs` 102-192) -/
def handleArgs (canon : Bytes → Option Bytes) : List Bytes → App → Except CliErr App
  | [], app => .ok app
  | arg :: rest, app =>
    if arg = b!"--build-id" then
      match rest with
      | next :: rest' =>
        if !startsDash next then
          match BuildId.fromStr next with
          | some b => handleArgs canon rest' { app with buildId := some b }
          | none => .error (.badValue next)
        else handleArgs canon (next :: rest') { app with buildId := some .sha1 }
      | [] => .ok { app with buildId := some .sha1 }
    else if arg = b!"-m" then
      match rest with
      | next :: rest' =>
        match Emulation.fromStr next with
        | some e => handleArgs canon rest' { app with emulation := e }
        | none => .error (.badValue next)
      | [] => .error (.missing arg)
    else if arg = b!"-o" then
      match rest with
      | next :: rest' => handleArgs canon rest' { app with output := next }
      | [] => .error (.missing arg)
    else if arg = b!"--eh-frame-hdr" then handleArgs canon rest { app with ehFrameHdr := true }
    else if arg = b!"--help" ∨ arg = b!"-h" then handleArgs canon rest { app with help := true }
    else if arg = b!"-dynamic-linker" then
      match rest with
      | next :: rest' => handleArgs canon rest' { app with dynamicLinker := next }
      | [] => .error (.missing arg)
    else if arg = b!"-L" then
      match rest with
      | next :: rest' =>
        handleArgs canon rest' { app with searchPaths := setInsert app.searchPaths next }
      | [] => .error (.missing arg)
    else if arg = b!"-l" then
      match rest with
      | next :: rest' =>
        handleArgs canon rest' { app with inputs := app.inputs ++ [(next, app.asNeeded)] }
      | [] => .error (.missing arg)
    else if arg = b!"-z" then
      match rest with
      | _ :: rest' => handleArgs canon rest' app
      | [] => .error (.missing arg)
    else if arg = b!"--as-needed" then handleArgs canon rest { app with asNeeded := true }
    else if arg = b!"--no-as-needed" then handleArgs canon rest { app with asNeeded := false }
    else if arg = b!"--start-group" ∨ arg = b!"--end-group" then handleArgs canon rest app
    else
      match special canon arg app with
      | .error e => .error e
      | .ok app => handleArgs canon rest app

/-- `FileType` (`src/main.rs` 66-72) -/
inductive FileType where
  | archive | elfObject | elfSharedLib | text
  deriving DecidableEq, Repr

/-- `goblin::archive::MAGIC`: `!<arch>\n` -/
def arMagic : Bytes := [0x21, 0x3c, 0x61, 0x72, 0x63, 0x68, 0x3e, 0x0a]

/-- `file_type` (`src/main.rs` 74-91) on the contents of a file that could be opened. -/
def fileType (contents : Bytes) : FileType :=
  if contents.length < 18 then .text
  else
    let header := contents.take 18
    if arMagic.isPrefixOf header then .archive
    else if ([0x7f, 0x45, 0x4c, 0x46] : Bytes).isPrefixOf header then
      if header.drop 16 = [UInt8.ofNat ET_DYN, UInt8.ofNat (ET_DYN / 256)] then .elfSharedLib
      else .elfObject
    else .text

/-- The file system: `exists() && is_file()`, the contents, `canonicalize`. -/
structure Fs where
  isFile : Bytes → Bool
  read : Bytes → Option Bytes
  canon : Bytes → Option Bytes

/-- `Path::join` (std): an absolute path replaces the directory. -/
def join (dir p : Bytes) : Bytes :=
  if p.head? = some 47 then p
  else if dir = [] ∨ dir.getLast? = some 47 then dir ++ p
  else dir ++ [47] ++ p

/-- `format!("lib{}.{}", lib, kind)` (`src/main.rs` 210) -/
def libName (lib kind : Bytes) : Bytes := b!"lib" ++ lib ++ [46] ++ kind

/-- The loop over the directories for one kind (`src/main.rs` 204-214), in the order given. -/
def searchDirs (fs : Fs) (lib kind : Bytes) : List Bytes → Option Bytes → Option Bytes
  | [], found => found
  | dir :: dirs, found =>
    let p := join dir lib
    if fs.isFile p then some p
    else
      let input := join dir (libName lib kind)
      searchDirs fs lib kind dirs (if fs.isFile input then some input else found)

/-- The search for one input (`src/main.rs` 196-215); `dirs` is the iteration order of
`search_paths` (the set is not changed between the two kinds, so the order is the same). -/
def findInput (fs : Fs) (dirs : List Bytes) (lib : Bytes) : Option Bytes :=
  let found := if fs.isFile lib then some lib else none
  let found := if found.isSome then found else searchDirs fs lib b!"so" dirs none
  if found.isSome then found else searchDirs fs lib b!"a" dirs none

/-- What `search_for_inputs` fills in (`src/main.rs` 30-40, 216-227) -/
structure Found where
  objects : List Bytes := []
  archives : List Bytes := []
  sharedLibs : List (Bytes × Bool) := []
  scripts : List Bytes := []
  deriving DecidableEq, Repr

/-- Result of `search_for_inputs`: an input that was not found, or a panic of an `unwrap`. -/
inductive SearchErr where
  | notFound (lib : Bytes)
  | panic
  deriving DecidableEq, Repr

/-- The loop body of `search_for_inputs` (`src/main.rs` 195-231) -/
def searchOne (fs : Fs) (dirs : List Bytes) (acc : Found) (e : Bytes × Bool) :
    Except SearchErr Found :=
  match findInput fs dirs e.1 with
  | none => .error (.notFound e.1)
  | some p =>
    match fs.read p with
    | none => .error .panic
    | some contents =>
      match fileType contents with
      | .elfObject =>
        match fs.canon p with
        | some c => .ok { acc with objects := acc.objects ++ [c] }
        | none => .error .panic
      | .archive =>
        match fs.canon p with
        | some c => .ok { acc with archives := setInsert acc.archives c }
        | none => .error .panic
      | .elfSharedLib => .ok { acc with sharedLibs := acc.sharedLibs ++ [(p, e.2)] }
      | .text => .ok { acc with scripts := acc.scripts ++ [p] }

/-- `search_for_inputs` (`src/main.rs` 194-233) on the inputs collected so far: what was filled in
until the first error, and that error. Inputs behind an error are dropped with the `drain`. -/
def searchForInputs (fs : Fs) (dirs : List Bytes) : List (Bytes × Bool) → Found → Found × Option SearchErr
  | [], acc => (acc, none)
  | e :: es, acc =>
    match searchOne fs dirs acc e with
    | .ok acc => searchForInputs fs dirs es acc
    | .error err => (acc, some err)

/-- How `main` ends before it calls the linker, or that it is still running. -/
inductive Outcome where
  /-- the options and inputs handed to the linker -/
  | link (app : App) (found : Found)
  /-- `--help` -/
  | help
  /-- `Err` returned by `main`: bad arguments or an input that was not found -/
  | badArgs (e : CliErr)
  | notFound (lib : Bytes)
  | panic
  | running
  deriving DecidableEq, Repr

/-- The script loop of `main` (`src/main.rs` 49-55), at most `fuel` scripts. Scripts are popped from
the end. A script that cannot be read or parsed is a panic; an error of the search is ignored, its
panics are not. `dirs` gives the iteration order of the set of directories; `parseFuel` bounds the
rounds of the script parser (`src/linker_script.rs` 75-85), and the loop counts as running when it
does not end within them. -/
def scriptLoop (fs : Fs) (dirs : List Bytes → List Bytes) (parseFuel : Nat) : (fuel : Nat) → App → Found → Outcome
  | 0, _, _ => .running
  | fuel + 1, app, found =>
    match found.scripts.getLast? with
    | none => .link app found
    | some script =>
      let found := { found with scripts := found.scripts.dropLast }
      match fs.read script with
      | none => .panic
      | some text =>
        match Script.parse parseFuel [] text with
        | .running => .running
        | .error => .panic
        | .ok [] => scriptLoop fs dirs parseFuel fuel app found
        | .ok args =>
          match handleArgs fs.canon args app with
          | .error .panic => .panic
          | .error e => .badArgs e
          | .ok app =>
            match searchForInputs fs (dirs app.searchPaths) app.inputs found with
            | (_, some .panic) => .panic
            | (found, _) => scriptLoop fs dirs parseFuel fuel { app with inputs := [] } found

/-- `main` up to the call of the linker, with `parse_args` (`src/main.rs` 42-55, 93-100). -/
def main (fs : Fs) (dirs : List Bytes → List Bytes) (parseFuel fuel : Nat) (args : List Bytes) : Outcome :=
  match handleArgs fs.canon args {} with
  | .error .panic => .panic
  | .error e => .badArgs e
  | .ok app =>
    match searchForInputs fs (dirs app.searchPaths) app.inputs {} with
    | (_, some .panic) => .panic
    | (_, some (.notFound lib)) => .notFound lib
    | (found, none) =>
      if app.help then .help
      else scriptLoop fs dirs parseFuel fuel { app with inputs := [] } found

end Dld.Cli
