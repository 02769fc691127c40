import Verif.Model.Options
/-! # `src/linker_script.rs`

The parser combinators of `combine` as used by the crate: a parser either succeeds, fails without
having consumed anything (another alternative may be tried) or fails after consuming (the whole parse
fails). Texts are ASCII bytes; `space()` is `char::is_whitespace` and `alpha_num()` is
`char::is_alphanumeric`, restricted to ASCII. -/
namespace Dld.Script

/-- Outcome of a parser: value and leftover, failure before, failure after consuming input. -/
inductive Res (α : Type) where
  | ok (a : α) (rest : Bytes)
  | empty
  | committed
  deriving DecidableEq, Repr

/-- `combine::parser::char::space` on ASCII: HT, LF, VT, FF, CR, space -/
def isSpace (c : UInt8) : Bool := (9 ≤ c && c ≤ 13) || c == 32

/-- `alpha_num` on ASCII -/
def isAlnum (c : UInt8) : Bool := (48 ≤ c && c ≤ 57) || (65 ≤ c && c ≤ 90) || (97 ≤ c && c ≤ 122)

/-- the characters of `parse_arg` (`src/linker_script.rs` 13) -/
def isArg (c : UInt8) : Bool := isAlnum c || c == 45 || c == 46 || c == 95 || c == 47

/-- `skip_many(space())` -/
def skipSpaces (s : Bytes) : Bytes := s.dropWhile isSpace

/-- `string(p)`: fails without consuming only when the first character differs. -/
def str (p s : Bytes) : Res Unit :=
  match stripPrefix p s with
  | some rest => .ok () rest
  | none => if p.head? = s.head? then .committed else .empty

/-- `parse_arg` (`src/linker_script.rs` 8-14) -/
def parseArg (s : Bytes) : Res Bytes :=
  if s.takeWhile isArg = [] then .empty else .ok (s.takeWhile isArg) (s.dropWhile isArg)

/-- `skip_until(string("*/"))` and the `string("*/")` after it: the text after the first `*`, if that
starts `*/`. `skip_until` stops with an error when its end parser fails after consuming a character,
so any other `*` in the text is an error (`none`), as is the end of the text. -/
def afterComment : Bytes → Option Bytes
  | [] => none
  | [_] => none
  | a :: b :: s => if a = 42 then (if b = 47 then some s else none) else afterComment (b :: s)

/-- `parse_comment` (`src/linker_script.rs` 16-22). -/
def parseComment (s : Bytes) : Res Unit :=
  match str b!"/*" s with
  | .ok _ rest =>
    match afterComment rest with
    | some r => .ok () r
    | none => .committed
  | .empty => .empty
  | .committed => .committed

/-- `sep_end_by(p, skip_many(space()))` for a parser that consumes at least one character;
`fuel` bounds the number of items (the length of the text suffices). -/
def items {α : Type} (p : Bytes → Res α) : (fuel : Nat) → Bytes → Option (List α × Bytes)
  | 0, s => some ([], s)
  | fuel + 1, s =>
    match p s with
    | .ok a rest => (items p fuel (skipSpaces rest)).map fun (l, r) => (a :: l, r)
    | .empty => some ([], s)
    | .committed => none

/-- `( name, skip_many(space()), between('(', ')', args) )` for a given argument parser
(`src/linker_script.rs` 34, 45, 62) -/
def command {α : Type} (name : Bytes) (args : Bytes → Option (α × Bytes)) (s : Bytes) : Res α :=
  match str name s with
  | .empty => .empty
  | .committed => .committed
  | .ok _ rest =>
    match skipSpaces rest with
    | c :: rest =>
      if c = 40 then
        match args rest with
        | some (a, d :: rest) => if d = 41 then .ok a rest else .committed
        | _ => .committed
      else .committed
    | [] => .committed

/-- `parse_as_needed_command` (`src/linker_script.rs` 39-53) -/
def parseAsNeeded (s : Bytes) : Res (List Bytes) :=
  match command b!"AS_NEEDED" (fun s => items parseArg s.length (skipSpaces s)) s with
  | .ok l rest => .ok (b!"--as-needed" :: l) rest
  | .empty => .empty
  | .committed => .committed

/-- an element of a `GROUP` list (`src/linker_script.rs` 32) -/
def groupItem (s : Bytes) : Res (List Bytes) :=
  match parseAsNeeded s with
  | .ok l rest => .ok l rest
  | .committed => .committed
  | .empty =>
    match parseArg s with
    | .ok a rest => .ok [a] rest
    | .empty => .empty
    | .committed => .committed

/-- `parse_group_command` (`src/linker_script.rs` 25-36) -/
def parseGroup (s : Bytes) : Res (List Bytes) :=
  match command b!"GROUP" (fun s => items groupItem s.length (skipSpaces s)) s with
  | .ok l rest => .ok l.flatten rest
  | .empty => .empty
  | .committed => .committed

/-- `parse_output_format_command` (`src/linker_script.rs` 56-65) -/
def parseOutputFormat (s : Bytes) : Res (List Bytes) :=
  match command b!"OUTPUT_FORMAT" (fun s =>
      match parseArg (skipSpaces s) with
      | .ok a rest => some (a, skipSpaces rest)
      | _ => none) s with
  | .ok _ rest => .ok [] rest
  | .empty => .empty
  | .committed => .committed

/-- `skip_ws_and_comments` (`src/linker_script.rs` 69-70); `fuel` bounds the number of pieces (the
length of the text suffices). `none` is a failure. -/
def skipWs : (fuel : Nat) → Bytes → Option Bytes
  | 0, s => some s
  | fuel + 1, s =>
    if skipSpaces s ≠ s then skipWs fuel (skipSpaces s)
    else
      match parseComment s with
      | .ok _ rest => skipWs fuel rest
      | .empty => some s
      | .committed => none

/-- One `line.parse(input)` (`src/linker_script.rs` 71-75): the arguments, if a command was found, and
the leftover text. `none` is an error. -/
def line (s : Bytes) : Option (Option (List Bytes) × Bytes) :=
  match skipWs s.length s with
  | none => none
  | some s =>
    match parseGroup s with
    | .ok l rest => some (some l, rest)
    | .committed => none
    | .empty =>
      match parseOutputFormat s with
      | .ok l rest => some (some l, rest)
      | .committed => none
      | .empty => some (none, s)

/-- Result of `parse`: arguments, an error (which `main` unwraps), or still running. -/
inductive Parsed where
  | ok (args : List Bytes)
  | error
  | running
  deriving DecidableEq, Repr

/-- `parse` (`src/linker_script.rs` 67-87), at most `fuel` rounds of its loop. -/
def parse : (fuel : Nat) → (args : List Bytes) → Bytes → Parsed
  | 0, _, _ => .running
  | fuel + 1, args, s =>
    match line s with
    | none => .error
    | some (a, leftover) =>
      let args := args ++ a.getD []
      if leftover ≠ [] then parse fuel args leftover else .ok args

end Dld.Script
