/-! # Specification: reading ELF64 little-endian images

Decoders written from the ELF64 tables (offsets and widths), independent of the writer. -/
namespace Dld.Spec

/-- unsigned little-endian value of a byte string -/
def fromLe : List UInt8 → Nat
  | [] => 0
  | b :: bs => b.toNat + 256 * fromLe bs

/-- two's complement value of `k` bytes -/
def signed (k n : Nat) : Int := if n < 256 ^ k / 2 then (n : Int) else (n : Int) - (256 ^ k : Nat)

/-- `len` bytes at `off` -/
def slice (img : List UInt8) (off len : Nat) : List UInt8 := (img.drop off).take len

/-- the unsigned field of `k` bytes at `off` -/
def field (img : List UInt8) (off k : Nat) : Nat := fromLe (slice img off k)

/-- the signed field of `k` bytes at `off` -/
def sfield (img : List UInt8) (off k : Nat) : Int := signed k (field img off k)

/-- The NUL-terminated string at `off`: nothing when the offset is outside the image or no NUL
follows. -/
def cstrAt (img : List UInt8) (off : Nat) : Option (List UInt8) :=
  let s := img.drop off
  if (0 : UInt8) ∈ s then some (s.takeWhile (· != 0)) else none

/-- ELF64 symbol table entry (24 bytes) -/
structure ESym where
  name : Nat
  info : Nat
  other : Nat
  shndx : Nat
  value : Nat
  size : Nat
  deriving DecidableEq, Repr

def decodeSym (img : List UInt8) (off : Nat) : ESym :=
  { name := field img off 4, info := field img (off + 4) 1, other := field img (off + 5) 1
    shndx := field img (off + 6) 2, value := field img (off + 8) 8, size := field img (off + 16) 8 }

/-- ELF64 section header (64 bytes) -/
structure EShdr where
  name : Nat
  type : Nat
  flags : Nat
  addr : Nat
  offset : Nat
  size : Nat
  link : Nat
  info : Nat
  addralign : Nat
  entsize : Nat
  deriving DecidableEq, Repr

def decodeShdr (img : List UInt8) (off : Nat) : EShdr :=
  { name := field img off 4, type := field img (off + 4) 4, flags := field img (off + 8) 8
    addr := field img (off + 16) 8, offset := field img (off + 24) 8, size := field img (off + 32) 8
    link := field img (off + 40) 4, info := field img (off + 44) 4
    addralign := field img (off + 48) 8, entsize := field img (off + 56) 8 }

/-- ELF64 program header (56 bytes) -/
structure EPhdr where
  type : Nat
  flags : Nat
  offset : Nat
  vaddr : Nat
  paddr : Nat
  filesz : Nat
  memsz : Nat
  align : Nat
  deriving DecidableEq, Repr

def decodePhdr (img : List UInt8) (off : Nat) : EPhdr :=
  { type := field img off 4, flags := field img (off + 4) 4, offset := field img (off + 8) 8
    vaddr := field img (off + 16) 8, paddr := field img (off + 24) 8, filesz := field img (off + 32) 8
    memsz := field img (off + 40) 8, align := field img (off + 48) 8 }

/-- ELF64 RELA entry (24 bytes): the symbol index is the high half of `r_info` -/
structure ERela where
  offset : Nat
  sym : Nat
  type : Nat
  addend : Int
  deriving DecidableEq, Repr

def decodeRela (img : List UInt8) (off : Nat) : ERela :=
  { offset := field img off 8, type := field img (off + 8) 4, sym := field img (off + 12) 4
    addend := sfield img (off + 16) 8 }

/-- ELF64 dynamic entry (16 bytes) -/
def decodeDyn (img : List UInt8) (off : Nat) : Nat × Nat :=
  (field img off 8, field img (off + 8) 8)

/-- ELF64 file header (64 bytes) -/
structure EHdr where
  ident : List UInt8
  type : Nat
  machine : Nat
  version : Nat
  entry : Nat
  phoff : Nat
  shoff : Nat
  flags : Nat
  ehsize : Nat
  phentsize : Nat
  phnum : Nat
  shentsize : Nat
  shnum : Nat
  shstrndx : Nat
  deriving DecidableEq, Repr

def decodeEhdr (img : List UInt8) : EHdr :=
  { ident := slice img 0 16, type := field img 16 2, machine := field img 18 2
    version := field img 20 4, entry := field img 24 8, phoff := field img 32 8
    shoff := field img 40 8, flags := field img 48 4, ehsize := field img 52 2
    phentsize := field img 54 2, phnum := field img 56 2, shentsize := field img 58 2
    shnum := field img 60 2, shstrndx := field img 62 2 }

end Dld.Spec
