import Verif.Model.Plt
/-! # `apply_relocation` (`src/elf/chunk.rs`) and `plt_entry_addr` (`src/elf.rs`) -/
namespace Dld

/-- The result of an `i64` operation or conversion: panics when it does not fit (overflow checks of
the debug profile, `try_into().unwrap()`). -/
def i64 (x : Int) : M Int :=
  if -9223372036854775808 ≤ x ∧ x < 9223372036854775808 then .ok x else .error .panic

/-- `TryInto<i32>` followed by `unwrap`. -/
def i32 (x : Int) : M Int :=
  if -2147483648 ≤ x ∧ x < 2147483648 then .ok x else .error .panic

/-- `plt_entry_addr` (`src/elf.rs` 1238-1241) -/
def pltEntryAddr (baseAddr index : Nat) : M Int :=
  i64 (baseAddr + PLT_ENTRY_SIZE * (1 + index) : Nat)

/-- The instruction table of the `R_X86_64_REX_GOTPCRELX` arm (`src/elf/chunk.rs` 164-182). -/
def movToLea : UInt8 → UInt8 → UInt8 → Option Bytes
  | 0x48, 0x8b, 0x05 => some [0x48, 0x8d, 0x05]
  | 0x48, 0x8b, 0x1d => some [0x48, 0x8d, 0x1d]
  | 0x48, 0x8b, 0x0d => some [0x48, 0x8d, 0x0d]
  | 0x48, 0x8b, 0x15 => some [0x48, 0x8d, 0x15]
  | 0x48, 0x8b, 0x35 => some [0x48, 0x8d, 0x35]
  | 0x48, 0x8b, 0x3d => some [0x48, 0x8d, 0x3d]
  | 0x48, 0x8b, 0x25 => some [0x48, 0x8d, 0x25]
  | 0x48, 0x8b, 0x2d => some [0x48, 0x8d, 0x2d]
  | 0x4c, 0x8b, 0x05 => some [0x4c, 0x8d, 0x05]
  | 0x4c, 0x8b, 0x0d => some [0x4c, 0x8d, 0x0d]
  | 0x4c, 0x8b, 0x15 => some [0x4c, 0x8d, 0x15]
  | 0x4c, 0x8b, 0x1d => some [0x4c, 0x8d, 0x1d]
  | 0x4c, 0x8b, 0x25 => some [0x4c, 0x8d, 0x25]
  | 0x4c, 0x8b, 0x2d => some [0x4c, 0x8d, 0x2d]
  | 0x4c, 0x8b, 0x35 => some [0x4c, 0x8d, 0x35]
  | 0x4c, 0x8b, 0x3d => some [0x4c, 0x8d, 0x3d]
  | _, _, _ => none

/-- The value `s` (`src/elf/chunk.rs` 104-109): the address of the copy for an undefined symbol
that a shared library provides, the symbol's own value otherwise. -/
def relocS (symbol : Symbol) (dynTable : SymbolTable) : M Int :=
  match symbol.dynamic with
  | some d =>
    if symbol.isUndefined then do
      let ds ← unwrap (dynTable.get d)
      i64 ds.sym.st_value
    else i64 symbol.sym.st_value
  | none => i64 symbol.sym.st_value

/-- The displacement `g + got + a - p` used by the GOT relative arms, each step an `i64` operation. -/
def gotDisp (symbol : Symbol) (got a p : Int) : M Int := do
  let g ← unwrap symbol.inGot
  let g ← i64 g
  let x ← i64 (g + got)
  let x ← i64 (x + a)
  i64 (x - p)

/-- The `R_X86_64_GOTPCRELX` arm for a symbol no shared library provides
(`src/elf/chunk.rs` 135-155): rewrite an indirect call/jump into a direct one. -/
def relaxCallJmp (data : Bytes) (offset : Nat) (value : Int) : M Bytes :=
  if offset < 2 then .error .panic
  else
    match data[offset - 2]?, data[offset - 1]? with
    | some 0xff, some 0x15 => writeAt data (offset - 2) ([0xe8] ++ leInt 4 value ++ [0x90])
    | some 0xff, some 0x25 => writeAt data (offset - 2) ([0xe9] ++ leInt 4 value ++ [0x90])
    | _, _ => .error .panic

/-- The `R_X86_64_REX_GOTPCRELX` arm for a symbol no shared library provides
(`src/elf/chunk.rs` 162-185): rewrite a load from the GOT into an address computation. -/
def relaxMovLea (data : Bytes) (offset : Nat) (value : Int) : M Bytes :=
  if offset < 3 then .error .panic
  else
    match data[offset - 3]?, data[offset - 2]?, data[offset - 1]? with
    | some x, some y, some z =>
      match movToLea x y z with
      | some instr => writeAt data (offset - 3) (instr ++ leInt 4 value)
      | none => .error .panic
    | _, _, _ => .error .panic

/-- `apply_relocation` (`src/elf/chunk.rs` 92-215). -/
def applyRelocation (chunkAddress : Nat) (data : Bytes) (rel : Rela) (symbol : Symbol)
    (dynTable : SymbolTable) (gotAddress pltAddress : Nat) : M Bytes := do
  let s ← relocS symbol dynTable
  let a := rel.r_addend
  let p ← i64 (chunkAddress + rel.r_offset : Nat)
  let got ← i64 gotAddress
  let offset := rel.r_offset
  let ty := r_type rel.r_info
  if ty = R_X86_64_NONE then .ok data
  else if ty = R_X86_64_64 then do
    let v ← i64 (s + a)
    writeAt data offset (leInt 8 v)
  else if ty = R_X86_64_32 then do
    let v ← i64 (s + a)
    let v ← i32 v
    writeAt data offset (leInt 4 v)
  else if ty = R_X86_64_32S then do
    let v ← i64 (s + a)
    -- `(s + a) as i32`: keeps the low 32 bits
    writeAt data offset (leInt 4 v)
  else if ty = R_X86_64_PC32 then do
    let v ← i64 (s + a)
    let v ← i64 (v - p)
    let v ← i32 v
    writeAt data offset (leInt 4 v)
  else if ty = R_X86_64_GOT32 then do
    let v ← gotDisp symbol got a p
    let v ← i32 v
    writeAt data offset (leInt 4 v)
  else if ty = R_X86_64_GOTPCRELX then
    if symbol.dynamic = none then do
      let v ← i64 (s + a)
      let v ← i64 (v - p)
      let v ← i32 v
      relaxCallJmp data offset v
    else do
      let v ← gotDisp symbol got a p
      let v ← i32 v
      writeAt data offset (leInt 4 v)
  else if ty = R_X86_64_REX_GOTPCRELX then
    if symbol.dynamic = none then do
      let v ← i64 (s + a)
      let v ← i64 (v - p)
      let v ← i32 v
      relaxMovLea data offset v
    else do
      let v ← gotDisp symbol got a p
      let v ← i32 v
      writeAt data offset (leInt 4 v)
  else if ty = R_X86_64_TLSGD ∨ ty = R_X86_64_GOTTPOFF then
    if symbol.isTls then do
      let v ← gotDisp symbol got a p
      let v ← i32 v
      writeAt data offset (leInt 4 v)
    else .error .panic
  else if ty = R_X86_64_TPOFF32 then do
    let v ← i64 (s + a)
    let v ← i32 v
    writeAt data offset (leInt 4 v)
  else if ty = R_X86_64_PLT32 then do
    let i ← unwrap symbol.inPlt
    let l ← pltEntryAddr pltAddress i
    let v ← i64 (l + a)
    let v ← i64 (v - p)
    let v ← i32 v
    writeAt data offset (leInt 4 v)
  else .error .panic

end Dld
