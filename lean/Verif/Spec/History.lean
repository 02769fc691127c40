import Verif.Model.Writer
/-! # Histories of calls of the writer's interface

A link is a sequence of calls that add sections, symbols, relocations and needed libraries to a
writer made by `Writer::new`, followed by `compute_sections` and `write_to_disk`. `Hist` is the set
of all such sequences in which every call succeeded. -/
namespace Dld

/-- one call with its arguments and its result -/
inductive Op where
  /-- `push_section` (`src/elf.rs` 422-429) -/
  | push (name : Name) (sh : SectionHeader) (data : Option Bytes) (result : SectionRef)
  /-- `add_symbol` (`src/elf.rs` 456-472) -/
  | sym (s : Sym) (sec : Option SectionRef) (name : Name) (path : Path) (result : SymbolRef)
  /-- `add_dyn_symbol` (`src/elf.rs` 474-505) -/
  | dynsym (s : Sym) (name : Name) (path : Path) (result : SymbolRef)
  /-- `add_relocation` (`src/elf.rs` 531-549) -/
  | reloc (rel : Rela) (sym : SymbolRef) (sec : SectionRef) (path : Path)
  /-- `add_needed` (`src/elf.rs` 563-573) -/
  | needed (name : Name)
  deriving DecidableEq, Repr

/-- a successful call -/
inductive Step : Writer → Op → Writer → Prop
  | push {w w' name sh data r} (h : w.pushSection name sh data = .ok (w', r)) :
      Step w (.push name sh data r) w'
  | sym {w w' s sec name path r} (h : w.addSymbol s sec name path = .ok (w', r)) :
      Step w (.sym s sec name path r) w'
  | dynsym {w w' s name path r} (h : w.addDynSymbol s name path = .ok (w', r)) :
      Step w (.dynsym s name path r) w'
  | reloc {w w' rel r sr path} (h : w.addRelocation rel r sr path = .ok w') :
      Step w (.reloc rel r sr path) w'
  | needed {w name} : Step w (.needed name) (w.addNeeded name)

/-- the writer `w` was made with `opts` and then received the calls `ops` -/
inductive Hist (opts : Options) : List Op → Writer → Prop
  | init {w} (h : Writer.new opts = .ok w) : Hist opts [] w
  | step {ops op w w'} (h : Hist opts ops w) (hs : Step w op w') : Hist opts (ops ++ [op]) w'

/-- the pushes of a section name: header and data, in order -/
def pushesOf (name : Name) : List Op → List (SectionHeader × Option Bytes)
  | [] => []
  | .push n sh data _ :: ops =>
    if n = name then (sh, data) :: pushesOf name ops else pushesOf name ops
  | _ :: ops => pushesOf name ops

/-- running a call -/
def Op.run (w : Writer) : Op → M Writer
  | .push name sh data r => do
    let (w, r') ← w.pushSection name sh data
    if r' = r then .ok w else .error .panic
  | .sym s sec name path r => do
    let (w, r') ← w.addSymbol s sec name path
    if r' = r then .ok w else .error .panic
  | .dynsym s name path r => do
    let (w, r') ← w.addDynSymbol s name path
    if r' = r then .ok w else .error .panic
  | .reloc rel r sr path => w.addRelocation rel r sr path
  | .needed name => .ok (w.addNeeded name)

/-- running a sequence of calls on a new writer -/
def runOps (opts : Options) (ops : List Op) : M Writer := do
  let w ← Writer.new opts
  foldM' Op.run w ops

end Dld
