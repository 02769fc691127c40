import Verif.Spec.Cli
/-! # Words of a command line that are accepted and change nothing -/
namespace Dld.Cli

/-- The words that ask for something the linker does not do: `--eh-frame-hdr`, `--build-id` with any style it knows, `-m elf_x86_64`, `-z` with any
keyword, and the marks around a group of libraries. -/
inductive Silent : Word → Prop where
  | ehFrameHdr : Silent (b!"--eh-frame-hdr", none)
  | buildId : Silent (b!"--build-id", none)
  | style {v} : v ∈ [b!"uuid", b!"sha1", b!"md5"] → Silent (b!"--build-id", some v)
  | hex {s} : Silent (b!"--build-id", some (b!"0x" ++ s))
  | emulation : Silent (b!"-m", some b!"elf_x86_64")
  | keyword {v} : Silent (b!"-z", some v)
  | startGroup : Silent (b!"--start-group", none)
  | endGroup : Silent (b!"--end-group", none)

/-- command lines that become the same when such words are left out -/
inductive SameApart : List Word → List Word → Prop where
  | nil : SameApart [] []
  | both {w ws ws'} : SameApart ws ws' → SameApart (w :: ws) (w :: ws')
  | left {w ws ws'} : Silent w → SameApart ws ws' → SameApart (w :: ws) ws'
  | right {w ws ws'} : Silent w → SameApart ws ws' → SameApart ws (w :: ws')

end Dld.Cli
