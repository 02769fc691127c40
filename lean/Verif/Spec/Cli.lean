import Verif.Model.Options
/-! # How a command line is to be read -/
namespace Dld.Cli

/-- options followed by a value -/
def valueOpts : List Bytes := [b!"-m", b!"-o", b!"-dynamic-linker", b!"-L", b!"-l", b!"-z"]

/-- options without a value -/
def flagOpts : List Bytes :=
  [b!"--eh-frame-hdr", b!"--help", b!"-h", b!"--as-needed", b!"--no-as-needed", b!"--start-group", b!"--end-group"]

/-- An option or input with its value, if it has one. -/
abbrev Word := Bytes × Option Bytes

/-- `Reads args ws`: the arguments are the words `ws`. -/
inductive Reads : List Bytes → List Word → Prop where
  | nil : Reads [] []
  /-- an option that needs a value takes the next argument, whatever it is -/
  | value {o v rest ws} : o ∈ valueOpts → Reads rest ws → Reads (o :: v :: rest) ((o, some v) :: ws)
  /-- `--build-id` takes the next argument if that does not start with `-` … -/
  | buildId {v rest ws} : v.head? ≠ some 45 → Reads rest ws → Reads (b!"--build-id" :: v :: rest) ((b!"--build-id", some v) :: ws)
  /-- … and stands alone otherwise -/
  | buildIdAlone {rest ws} : (∀ v, rest.head? = some v → v.head? = some 45) → Reads rest ws →
      Reads (b!"--build-id" :: rest) ((b!"--build-id", none) :: ws)
  /-- everything else stands alone -/
  | alone {a rest ws} : a ∉ valueOpts → a ≠ b!"--build-id" → Reads rest ws → Reads (a :: rest) ((a, none) :: ws)

/-- the values given for option `o`, in order -/
def valuesOf (o : Bytes) (ws : List Word) : List Bytes := ws.filterMap fun w => if w.1 = o then w.2 else none

/-- the styles given with `--hash-style=STYLE`, in order -/
def stylesOf (ws : List Word) : List HashStyle := ws.filterMap fun w =>
  if b!"--hash-style=".isPrefixOf w.1 then HashStyle.fromStr (w.1.drop 13) else none

/-- the build ids asked for, in order; SHA1 when no style is given -/
def buildIdsOf (ws : List Word) : List BuildId := ws.filterMap fun w =>
  if w.1 = b!"--build-id" then
    match w.2 with
    | none => some .sha1
    | some v => BuildId.fromStr v
  else none

/-- the directories to search -/
def dirOf (canon : Bytes → Option Bytes) (w : Word) : Option Bytes :=
  if w.1 = b!"-L" then w.2
  else if b!"-L".isPrefixOf w.1 then canon (w.1.drop 2)
  else none

/-- the input a word names: `-l NAME`, `-lNAME`, or anything that is no option -/
def inputOf (w : Word) : Option Bytes :=
  if w.1 = b!"-l" then w.2
  else if w.1 ∈ valueOpts ∨ w.1 ∈ flagOpts ∨ w.1 = b!"--build-id" ∨ b!"-L".isPrefixOf w.1 = true ∨
      b!"--hash-style=".isPrefixOf w.1 = true then none
  else if b!"-l".isPrefixOf w.1 then some (w.1.drop 2)
  else some w.1

/-- the as-needed state after the words `ws` -/
def asNeededAfter (ws : List Word) : Bool :=
  ((ws.filterMap fun w => if w.1 = b!"--as-needed" then some true else if w.1 = b!"--no-as-needed" then some false else none).getLast?).getD
    false

/-- the inputs in order, each with the as-needed state at its place -/
def inputsOf (ws : List Word) : List (Bytes × Bool) :=
  ws.zipIdx.filterMap fun e => (inputOf e.1).map fun n => (n, asNeededAfter (ws.take e.2))

/-- The values of the word are understood: a known emulation, build id or hash style, an existing
directory. -/
def WordOk (canon : Bytes → Option Bytes) (w : Word) : Prop :=
  (w.1 = b!"-m" → w.2 = some b!"elf_x86_64") ∧
  (∀ v, w.1 = b!"--build-id" → w.2 = some v → (BuildId.fromStr v).isSome) ∧
  (w.1 ≠ b!"-L" → b!"-L".isPrefixOf w.1 → (canon (w.1.drop 2)).isSome) ∧
  (b!"--hash-style=".isPrefixOf w.1 → (HashStyle.fromStr (w.1.drop 13)).isSome)

end Dld.Cli
