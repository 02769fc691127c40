import Verif.Model.Bytes
/-! # `src/elf/options.rs` -/
namespace Dld

/-- `BuildId` (`src/elf/options.rs` 3-9) -/
inductive BuildId where
  | uuid | sha1 | md5 | hex (s : Bytes)
  deriving DecidableEq, Repr

/-- `str::starts_with` / `strip_prefix` with a string: the rest after the prefix. -/
def stripPrefix : (pre s : Bytes) → Option Bytes
  | [], s => some s
  | _ :: _, [] => none
  | p :: ps, c :: cs => if p = c then stripPrefix ps cs else none

/-- `BuildId::from_str` (`src/elf/options.rs` 14-24); `none` is the error. -/
def BuildId.fromStr (s : Bytes) : Option BuildId :=
  if s = b!"uuid" then some .uuid
  else if s = b!"sha1" then some .sha1
  else if s = b!"md5" then some .md5
  else (stripPrefix b!"0x" s).map .hex

/-- `HashStyle` (`src/elf/options.rs` 33-38) -/
inductive HashStyle where
  | sysv | gnu | both
  deriving DecidableEq, Repr

/-- `HashStyle::from_str` (`src/elf/options.rs` 43-50); `none` is the error. -/
def HashStyle.fromStr (s : Bytes) : Option HashStyle :=
  if s = b!"sysv" then some .sysv
  else if s = b!"gnu" then some .gnu
  else if s = b!"both" then some .both
  else none

/-- `Emulation` (`src/elf/options.rs` 59-62) -/
inductive Emulation where
  | elfX86_64
  deriving DecidableEq, Repr

/-- `Emulation::from_str` (`src/elf/options.rs` 67-72); `none` is the error. -/
def Emulation.fromStr (s : Bytes) : Option Emulation :=
  if s = b!"elf_x86_64" then some .elfX86_64 else none

/-- `Options` (`src/elf/options.rs` 81-91) -/
structure Options where
  output : Path
  buildId : Option BuildId
  hashStyle : HashStyle
  ehFrameHdr : Bool
  emulation : Emulation
  dynamicLinker : Path
  sharedLibs : List (Path × Bool)
  deriving DecidableEq, Repr

/-- `impl Default for Options` (`src/elf/options.rs` 93-105), with the defaults of
`HashStyle` (53-57) and `Emulation` (75-79). -/
def Options.default : Options :=
  { output := ⟨b!"./out", some b!"out"⟩
    buildId := none
    hashStyle := .both
    ehFrameHdr := false
    emulation := .elfX86_64
    dynamicLinker := ⟨b!"/lib64/ld-linux-x86-64.so.2", some b!"ld-linux-x86-64.so.2"⟩
    sharedLibs := [] }

end Dld
