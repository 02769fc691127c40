import Verif.Model.Process
/-! # The text of the error messages (`src/error.rs`, `format_list` of `src/lib.rs`, the end of `main`) -/
namespace Dld

/-- `v.join(", ")` (`src/lib.rs` 290) -/
def joinComma : List Bytes → Bytes
  | [] => []
  | [x] => x
  | x :: y :: r => x ++ b!", " ++ joinComma (y :: r)

/-- `format_list` (`src/lib.rs` 288-293) -/
def formatList (v : List Bytes) : Bytes := b!"[" ++ joinComma v ++ b!"]"

/-- `{}` of an integer (`src/elf.rs` 540-543) -/
def decText (n : Nat) : Bytes := (Nat.toDigits 10 n).map fun c => UInt8.ofNat c.toNat

/-- `Display` of `ErrorType` (`src/error.rs` 4-14). `cause` is the text of the I/O error or of the parser's error (`src/error.rs` 6-9), which is
not modelled; the other texts are those of `src/lib.rs` 266-269 and 276-286, `src/elf.rs` 447 with `src/elf/symbol_table.rs` 40-44, and
`src/elf.rs` 540-543. -/
def ErrKind.text (cause : Bytes) : ErrKind → Bytes
  | .input => cause
  | .strtab => b!"Symbol not found in strtab."
  | .alreadyDefined name reference => name ++ b!" " ++ b!"symbol already defined in " ++ reference.full
  | .nonAbiReloc ty => b!"Relocation " ++ decText ty ++ b!" not conforming to ABI."
  | .undefined names => formatList names

/-- `Display` of `Error` (`src/error.rs` 34-38) -/
def errorText (cause : Bytes) (path : Bytes) (k : ErrKind) : Bytes := b!"`" ++ path ++ b!"`: " ++ k.text cause

/-- a hexadecimal digit -/
def hexDigit (n : Nat) : UInt8 := if n < 10 then UInt8.ofNat (48 + n) else UInt8.ofNat (87 + n)

/-- One byte in `{:?}` of a string (std, by `fn main() -> Result<(), String>`, `src/main.rs` 42). Bytes from 128 on, which are parts of
longer characters, are taken to be printed as they are. -/
def debugByte (b : UInt8) : Bytes :=
  if b = 34 then [92, 34]
  else if b = 92 then [92, 92]
  else if b = 9 then [92, 116]
  else if b = 10 then [92, 110]
  else if b = 13 then [92, 114]
  else if b = 0 then [92, 48]
  else if b < 16 then b!"\\u{" ++ [hexDigit b.toNat] ++ b!"}"
  else if b < 32 ∨ b = 127 then b!"\\u{" ++ [hexDigit (b.toNat / 16), hexDigit (b.toNat % 16)] ++ b!"}"
  else [b]

/-- `{:?}` of a string (std) -/
def debugText (s : Bytes) : Bytes := b!"\"" ++ s.flatMap debugByte ++ b!"\""

namespace Cli

/-- The message for the user: `main` returns the text (`src/main.rs` 58-59, 98), and the runtime prints `Error: ` and the text in quotes on
standard error. `arg` is the text of a mistake in the arguments, which is not modelled. -/
def Report.text (arg : CliErr → Bytes) (cause : Bytes) : Report → Bytes
  | .arg e => arg e
  | .notFound lib => b!"Couldn't find library " ++ lib
  | .link path kind => errorText cause path kind

/-- what is printed on standard error when `main` returns `Err` (`src/main.rs` 42-64; std's `Termination` for `Result`) -/
def Report.printed (arg : CliErr → Bytes) (cause : Bytes) (r : Report) : Bytes := b!"Error: " ++ debugText (r.text arg cause) ++ [10]

end Cli
end Dld
