import Verif.Spec.Decode
/-! # Specification: the x86-64 instructions the linker writes or rewrites

Encodings from the Intel SDM: REX.W (0x48, with REX.R 0x4c), opcodes 8B (MOV r64, r/m64),
8D (LEA r64, m), FF /2 /4 /6 (indirect CALL, JMP, PUSH), E8, E9, 68, 90. Only the RIP-relative
addressing form (mod = 00, r/m = 101) occurs. -/
namespace Dld.Spec

/-- decoded instructions; addresses are absolute -/
inductive Instr where
  | load (reg : Nat) (ea : Int)
  | lea (reg : Nat) (ea : Int)
  | call (target : Int)
  | jmp (target : Int)
  | callMem (ea : Int)
  | jmpMem (ea : Int)
  | pushMem (ea : Int)
  | push (imm : Int)
  | nop
  deriving DecidableEq, Repr

/-- RIP-relative ModRM: `reg` field when mod = 00 and r/m = 101 -/
def ripReg (modrm : Nat) : Option Nat :=
  if modrm / 64 = 0 ∧ modrm % 8 = 5 then some (modrm / 8 % 8) else none

/-- The instruction whose bytes start at offset `off` of `img`, executed at address `addr`, and its
length. -/
def decodeInstr (img : List UInt8) (off : Nat) (addr : Int) : Option (Instr × Nat) :=
  let b (i : Nat) : Nat := field img (off + i) 1
  let rip (i : Nat) : Int := addr + (i + 4 : Nat) + sfield img (off + i) 4
  if b 0 = 0x48 ∨ b 0 = 0x4c then
    match ripReg (b 2) with
    | some r =>
      let reg := r + (if b 0 = 0x4c then 8 else 0)
      if img.length < off + 7 then none
      else if b 1 = 0x8b then some (.load reg (rip 3), 7)
      else if b 1 = 0x8d then some (.lea reg (rip 3), 7)
      else none
    | none => none
  else if b 0 = 0xff then
    match ripReg (b 1) with
    | some r =>
      if img.length < off + 6 then none
      else if r = 2 then some (.callMem (rip 2), 6)
      else if r = 4 then some (.jmpMem (rip 2), 6)
      else if r = 6 then some (.pushMem (rip 2), 6)
      else none
    | none => none
  else if img.length < off + 1 then none
  else if b 0 = 0x90 then some (.nop, 1)
  else if img.length < off + 5 then none
  else if b 0 = 0xe8 then some (.call (rip 1), 5)
  else if b 0 = 0xe9 then some (.jmp (rip 1), 5)
  else if b 0 = 0x68 then some (.push (sfield img (off + 1) 4), 5)
  else none

end Dld.Spec
