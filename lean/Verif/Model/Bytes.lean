/-!
# Byte strings, failures, association lists

Shared vocabulary of the model. Nothing here models a particular function of
the crate; the comments say which std/byteorder behaviour each helper stands for.
-/
namespace Dld

/-- A byte buffer (`Vec<u8>`, `&[u8]`, the bytes of a `str`). -/
abbrev Bytes := List UInt8

/-- Names of sections and symbols: the UTF-8 bytes of a Rust `str`. -/
abbrev Name := Bytes

/-- A Rust `Path`. `full` is its bytes, `file` what `Path::file_name` returns
(std behaviour, taken as part of the input). -/
structure Path where
  full : Bytes
  file : Option Bytes
  deriving DecidableEq, Repr

open Lean in
/-- `b!"text"` is the list of the bytes of an ASCII string literal, expanded at
elaboration time to a list of numerals. -/
macro:max "b!" s:str : term => do
  let bs := s.getString.toUTF8.toList.map fun b => Syntax.mkNumLit (toString b.toNat)
  let elems : Array (TSyntax `term) := (bs.map fun n => (⟨n.raw⟩ : TSyntax `term)).toArray
  `(([$elems,*] : List UInt8))

/-- Payload of `error::ErrorType` (`src/error.rs` 4-14), by the place that builds it. -/
inductive ErrKind where
  /-- goblin failed to parse / I/O error while reading an input -/
  | input
  /-- "Symbol not found in strtab." (`src/lib.rs` 276-286) -/
  | strtab
  /-- "`name` symbol already defined in `reference`" (`src/elf/symbol_table.rs` 42-43,
  `src/elf.rs` 447) -/
  | alreadyDefined (name : Name) (reference : Path)
  /-- "Relocation .. not conforming to ABI." (`src/elf.rs` 540-543) -/
  | nonAbiReloc (ty : Nat)
  /-- the list of undefined symbols (`src/lib.rs` 262-269) -/
  | undefined (names : List Name)
  deriving DecidableEq, Repr

/-- The two ways a Rust computation of the crate can stop: a panic, or a returned
`Error { path, ty }` (`src/error.rs` 22-26). -/
inductive Fail where
  | panic
  | err (path : Path) (k : ErrKind)
  deriving DecidableEq, Repr

/-- A computation that may panic or return an error. -/
abbrev M := Except Fail

/-- `Option::unwrap`, slice indexing, ...: panic on `none`. -/
def unwrap {α} : Option α → M α
  | some a => .ok a
  | none => .error .panic

/-- byteorder's `write_uN::<LittleEndian>`: the `k` low bytes of `n`, least significant first. -/
def le : Nat → Nat → Bytes
  | 0, _ => []
  | k + 1, n => UInt8.ofNat n :: le k (n / 256)

/-- byteorder's `write_iN::<LittleEndian>` (two's complement). -/
def leInt (k : Nat) (i : Int) : Bytes := le k (i % (256 ^ k : Nat)).toNat

/-- `(&mut buf[off..]).write_*(v).unwrap()`: overwrite `v.length` bytes at `off`; panics when
the slice start or the write runs past the end of the buffer. -/
def writeAt (buf : Bytes) (off : Nat) (v : Bytes) : M Bytes :=
  if off + v.length ≤ buf.length then
    .ok (buf.take off ++ v ++ buf.drop (off + v.length))
  else .error .panic

/-- `x as u16`, `x as u32`. -/
def u16 (n : Nat) : Nat := n % 65536
def u32 (n : Nat) : Nat := n % 4294967296

/-! `HashMap` operations on entry lists. -/
namespace AMap
variable {κ ν : Type} [DecidableEq κ]

/-- `HashMap::get` -/
def get? : List (κ × ν) → κ → Option ν
  | [], _ => none
  | (k', v) :: m, k => if k' = k then some v else get? m k

/-- update the value of an existing key (`HashMap::get_mut` and assignment) -/
def modify : List (κ × ν) → κ → (ν → ν) → List (κ × ν)
  | [], _, _ => []
  | (k', v) :: m, k, f => if k' = k then (k', f v) :: m else (k', v) :: modify m k f

/-- `HashMap::insert` -/
def insert (m : List (κ × ν)) (k : κ) (v : ν) : List (κ × ν) :=
  match get? m k with
  | some _ => modify m k (fun _ => v)
  | none => m ++ [(k, v)]

/-- the keys, in insertion order -/
def keys (m : List (κ × ν)) : List κ := m.map (·.1)

end AMap

/-- Left-to-right traversal with a state, stopping at the first failure
(a `for` loop that mutates both the elements and a captured state). -/
def mapAccumM {ε σ α β : Type} (f : σ → α → Except ε (σ × β)) : σ → List α → Except ε (σ × List β)
  | s, [] => .ok (s, [])
  | s, a :: l =>
    match f s a with
    | .error e => .error e
    | .ok (s', b) =>
      match mapAccumM f s' l with
      | .error e => .error e
      | .ok (s'', bs) => .ok (s'', b :: bs)

/-- Left-to-right loop with a state, stopping at the first failure. -/
def foldM' {ε σ α : Type} (f : σ → α → Except ε σ) : σ → List α → Except ε σ
  | s, [] => .ok s
  | s, a :: l =>
    match f s a with
    | .error e => .error e
    | .ok s' => foldM' f s' l

/-- `slice::sort_by`, stable: insertion of each element before the first element that is not
smaller. (Insertion sort and Rust's merge sort return the same list: the unique stable sort.) -/
def insertSorted {α : Type} (le : α → α → Bool) (x : α) : List α → List α
  | [] => [x]
  | y :: ys => if le x y then x :: y :: ys else y :: insertSorted le x ys

def stableSort {α : Type} (le : α → α → Bool) : List α → List α
  | [] => []
  | x :: xs => insertSorted le x (stableSort le xs)

end Dld
