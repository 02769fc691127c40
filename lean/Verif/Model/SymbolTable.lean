import Verif.Model.Serialize
import Verif.Model.Name
/-! # `src/symbol.rs` and `SymbolTable` of `src/elf/symbol_table.rs` -/
namespace Dld

/-- `SymbolRef` (`src/elf/symbol_table.rs` 21-27) -/
inductive SymbolRef where
  | named (st_name : Nat)
  | section (shndx : Nat) (i : Nat)
  deriving DecidableEq, Repr

/-- `SymbolRef::st_name` (`src/elf/symbol_table.rs` 29-38) -/
def SymbolRef.st_name : SymbolRef → Nat
  | .named n => n
  | .section _ _ => 0

/-- `symbol::Symbol` (`src/symbol.rs` 13-24) -/
structure Symbol where
  sym : Sym
  hash : UInt32
  gnuHash : UInt32
  reference : Path
  inGot : Option Nat := none
  inPlt : Option Nat := none
  inGotPlt : Option Nat := none
  relocationOffset : Option Nat := none
  dynamic : Option SymbolRef := none
  deriving DecidableEq, Repr

/-- `goblin::elf64::sym::st_type`, `Symbol::st_type` (`src/symbol.rs` 45-47) -/
def stType (info : Nat) : Nat := info % 16

/-- `Symbol::st_bind` (`src/symbol.rs` 41-43): `st_info >> 4`, `st_info` being a `u8` -/
def stBind (info : Nat) : Nat := info / 16

namespace Symbol

/-- `is_global` (`src/symbol.rs` 49-51) -/
def isGlobal (s : Symbol) : Bool := stBind s.sym.st_info == STB_GLOBAL
/-- `is_weak` (`src/symbol.rs` 53-55) -/
def isWeak (s : Symbol) : Bool := stBind s.sym.st_info == STB_WEAK
/-- `is_tls` (`src/symbol.rs` 57-59) -/
def isTls (s : Symbol) : Bool := stType s.sym.st_info == STT_TLS
/-- `is_object` (`src/symbol.rs` 61-63) -/
def isObject (s : Symbol) : Bool := stType s.sym.st_info == STT_OBJECT
/-- `is_local` (`src/symbol.rs` 65-67) -/
def isLocal (s : Symbol) : Bool := stBind s.sym.st_info == STB_LOCAL
/-- `is_undefined` (`src/symbol.rs` 69-71) -/
def isUndefined (s : Symbol) : Bool := s.sym.st_shndx == SHN_UNDEF

/-- `higher_bind_than` (`src/symbol.rs` 101-108) -/
def higherBindThan (s1 s2 : Symbol) : Bool :=
  let b1 := stBind s1.sym.st_info
  let b2 := stBind s2.sym.st_info
  !((b1 == STB_LOCAL && b2 == STB_WEAK) || (b1 == STB_LOCAL && b2 == STB_GLOBAL)
    || (b1 == STB_WEAK && b2 == STB_GLOBAL))

end Symbol

/-- `SymbolTable` (`src/elf/symbol_table.rs` 46-52) -/
structure SymbolTable where
  symbols : List (Nat × Symbol)
  sectionSyms : List (Nat × List Symbol)
  numLocals : Nat
  isDynamic : Bool
  deriving DecidableEq, Repr

namespace SymbolTable

/-- The occupied branch of `add_symbol` (`src/elf/symbol_table.rs` 100-124): merge a new symbol
into the entry `old`. `none` is `Err(AlreadyDefined(old.reference))`. -/
def resolve (old new : Symbol) : Option Symbol :=
  if old.isGlobal && new.isGlobal && old.sym.st_shndx != SHN_UNDEF && new.sym.st_shndx != SHN_UNDEF
  then none
  else if !old.higherBindThan new then
    some { old with sym := { old.sym with
      st_info := new.sym.st_info, st_other := new.sym.st_other, st_shndx := new.sym.st_shndx,
      st_value := new.sym.st_value, st_size := new.sym.st_size } }
  else if old.sym.st_shndx == SHN_UNDEF then
    some { old with sym := { old.sym with st_shndx := new.sym.st_shndx } }
  else some old

/-- `SymbolTable::add_symbol` (`src/elf/symbol_table.rs` 79-133). The error carries the path in
`Error::AlreadyDefined`. -/
def addSymbol (t : SymbolTable) (elfSym : Sym) (hash gnuHash : UInt32) (reference : Path) :
    Except Path (SymbolTable × SymbolRef) :=
  let newSym : Symbol := { sym := elfSym, hash := hash, gnuHash := gnuHash, reference := reference }
  if stType elfSym.st_info = STT_SECTION then
    let l := (AMap.get? t.sectionSyms elfSym.st_shndx).getD []
    .ok ({ t with sectionSyms := AMap.insert t.sectionSyms elfSym.st_shndx (l ++ [newSym]) },
      .section elfSym.st_shndx l.length)
  else
    match AMap.get? t.symbols elfSym.st_name with
    | some old =>
      match resolve old newSym with
      | none => .error old.reference
      | some s => .ok ({ t with symbols := AMap.modify t.symbols elfSym.st_name (fun _ => s) },
          .named elfSym.st_name)
    | none =>
      .ok ({ t with symbols := t.symbols ++ [(elfSym.st_name, newSym)],
                    numLocals := if newSym.isLocal then t.numLocals + 1 else t.numLocals },
        .named elfSym.st_name)

/-- the null symbol `Default::default` inserts (`src/elf/symbol_table.rs` 62-69) -/
def nullSymbol : Symbol :=
  { sym := {}, hash := 0, gnuHash := 0, reference := { full := [], file := none } }

/-- `Default::default` (`src/elf/symbol_table.rs` 54-72) and `SymbolTable::new`
(`src/elf/symbol_table.rs` 75-77): adding the null symbol to the empty table cannot fail. -/
def new (isDynamic : Bool) : SymbolTable :=
  match addSymbol { symbols := [], sectionSyms := [], numLocals := 0, isDynamic := false }
      nullSymbol.sym 0 0 nullSymbol.reference with
  | .ok (t, _) => { t with isDynamic := isDynamic }
  | .error _ => { symbols := [], sectionSyms := [], numLocals := 0, isDynamic := isDynamic }

/-- `SymbolTable::get` (`src/elf/symbol_table.rs` 135-140). The out-of-range index of a section
symbol (a panic in Rust) is `none` here as well: every caller unwraps. -/
def get (t : SymbolTable) : SymbolRef → Option Symbol
  | .named n => AMap.get? t.symbols n
  | .section s i => (AMap.get? t.sectionSyms s).bind (·[i]?)

/-- `SymbolTable::get_mut` followed by an assignment (`src/elf/symbol_table.rs` 142-147) -/
def modify (t : SymbolTable) (r : SymbolRef) (f : Symbol → Symbol) : SymbolTable :=
  match r with
  | .named n => { t with symbols := AMap.modify t.symbols n f }
  | .section s i => { t with sectionSyms := AMap.modify t.sectionSyms s (fun l => l.modify i f) }

/-- `sort_symbols_func` (`src/elf/symbol_table.rs` 265-273) as `s1 <= s2`: local before others,
then by GNU hash. -/
def sortLe (s1 s2 : Symbol) : Bool :=
  let b1 := if s1.isLocal then 0 else 1
  let b2 := if s2.isLocal then 0 else 1
  if b1 = b2 then decide (s1.gnuHash.toNat ≤ s2.gnuHash.toNat) else decide (b1 < b2)

/-- `SymbolTable::sorted` (`src/elf/symbol_table.rs` 149-153). `order` is the iteration order of the
hash map: it receives the keys in insertion order and returns the order in which `values()`
yields them. -/
def sorted (order : List Nat → List Nat) (t : SymbolTable) : List Symbol :=
  stableSort sortLe ((order (AMap.keys t.symbols)).filterMap (AMap.get? t.symbols))

/-- `SymbolTable::total_len` (`src/elf/symbol_table.rs` 169-171) -/
def totalLen (t : SymbolTable) : Nat := t.symbols.length * sizeofSym

/-- `SymbolTable::chunk` (`src/elf/symbol_table.rs` 173-179): the bytes -/
def chunk (order : List Nat → List Nat) (t : SymbolTable) : Bytes :=
  (t.sorted order).flatMap fun s => serSym s.sym

/-- `SymbolTable::update_object_symbols` (`src/elf/symbol_table.rs` 193-205). The updates of
different entries are independent, so the iteration order does not matter. -/
def updateObjectSymbols (t : SymbolTable) (copyRelAddr index : Nat) : SymbolTable :=
  { t with symbols := t.symbols.map fun (k, s) =>
      if s.isObject then
        (k, { s with sym := { s.sym with st_value := s.sym.st_value + copyRelAddr,
                                         st_shndx := u16 index } })
      else (k, s) }

end SymbolTable
end Dld
