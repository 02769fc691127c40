import Verif.Spec.Run
import Verif.Spec.Got
/-! # Inputs a link cannot choke on

What an object file has to look like for every relocation in it to be applied, and how large an
input may be, written down from the x86-64 psABI and not from the code that applies relocations. -/
namespace Dld
open Writer Spec
/-- the cost of a call: the bytes it brings and room for what the linker adds for it -/
def Op.cost : Op → Nat
  | .push name sh _ _ => sh.sh_size + name.length + 4400
  | .sym _ _ name _ _ => name.length + 200
  | .dynsym s name _ _ => s.st_size + name.length + 200
  | .reloc _ _ _ _ => 64
  | .needed name => name.length + 32

/-- the cost of the writer itself: the path of the dynamic linker and its file name -/
def baseCost (opts : Options) : Nat := 80000 + 2 * opts.dynamicLinker.full.length + (opts.dynamicLinker.file.getD []).length

/-- the call records the symbol in a section other than the null section (which is where
undefined symbols are recorded) -/
def Op.attaches (r : SymbolRef) : Op → Bool
  | .sym _ (some sec) _ _ y => y == r && sec.ptr != P.null
  | _ => false

/-- section symbols have no names, as in the files of the usual assemblers -/
def SectionsNameless (ops : List Op) : Prop := ∀ s sec n path r, Op.sym s sec n path r ∈ ops → stType s.st_info = STT_SECTION → n = []

/-- every relocation refers to a symbol that was added -/
def RelocSyms (ops : List Op) : Prop := ∀ rel y r path, Op.reloc rel y r path ∈ ops → ∃ s sec n p, Op.sym s sec n p y ∈ ops

namespace Spec

/-- the bytes a relocation is about, start and length: the field, and for relocations that may be
relaxed also the bytes of the instruction before the field -/
def relField (rel : Rela) : Nat × Nat :=
  if relType rel = 0 then (rel.r_offset, 0)
  else if relType rel = 1 then (rel.r_offset, 8)
  else if relType rel = 41 then (rel.r_offset - 2, 6)
  else if relType rel = 42 then (rel.r_offset - 3, 7)
  else (rel.r_offset, 4)

/-- two ranges have no byte in common -/
def Apart (a b : Nat × Nat) : Prop := a.1 + a.2 ≤ b.1 ∨ b.1 + b.2 ≤ a.1

/-- an indirect call or jump, `ff 15` or `ff 25`, with its field at `off` -/
def CallOrJump (data : Bytes) (off : Nat) : Prop :=
  2 ≤ off ∧ data[off - 2]? = some 0xff ∧ (data[off - 1]? = some 0x15 ∨ data[off - 1]? = some 0x25)

/-- a load of a 64-bit register relative to the instruction pointer, `48/4c 8b` and a ModRM byte
with mode 0 and base 5, with its field at `off` -/
def LoadRip (data : Bytes) (off : Nat) : Prop :=
  3 ≤ off ∧ (data[off - 3]? = some 0x48 ∨ data[off - 3]? = some 0x4c) ∧ data[off - 2]? = some 0x8b ∧
  ∃ z : UInt8, data[off - 1]? = some z ∧ z.toNat % 8 = 5 ∧ z.toNat < 64

/-- the relocation is of a kind the linker implements, inside the data, and in an instruction it can relax -/
structure Applicable (t : SymbolTable) (data : Bytes) (rel : Rela) (y : SymbolRef) : Prop where
  type : relType rel ∈ [0, 1, 2, 3, 4, 10, 11, 19, 22, 23, 41, 42]
  inside : (relField rel).1 + (relField rel).2 ≤ data.length
  call : relType rel = 41 → ¬ Imported t y → CallOrJump data rel.r_offset
  load : relType rel = 42 → ¬ Imported t y → LoadRip data rel.r_offset
  tls : relType rel = 19 ∨ relType rel = 22 → ThreadLocal t y

/-- the relocations of a pushed section, in the order of the calls -/
def relasIn (sr : SectionRef) (ops : List Op) : List Rela :=
  ops.filterMap fun
    | .reloc rel _ r _ => if r = sr then some rel else none
    | _ => none

/-- the relocations of the input can be applied -/
structure RelocsOk (ops : List Op) (w : Writer) : Prop where
  /-- each is in the data of a section -/
  home : ∀ rel y sr path, Op.reloc rel y sr path ∈ ops → ∃ n sh data, Op.push n sh (some data) sr ∈ ops ∧ Applicable w.symtab data rel y
  /-- no two are about the same bytes -/
  apart : ∀ sr, (relasIn sr ops).Pairwise fun a b => Apart (relField a) (relField b)

/-- relocations are only in sections that are loaded: none is in debugging information -/
def RelocsLoaded (ops : List Op) : Prop :=
  ∀ rel y sr path n sh data, Op.reloc rel y sr path ∈ ops → Op.push n sh (some data) sr ∈ ops →
    ∀ sh' d' r', Op.push n sh' d' r' ∈ ops → sh'.sh_flags / 2 % 2 = 1

/-- how large an image the calls can lead to: what they bring, generous room for what the linker
adds for each of them, and the address the image starts at -/
def reach (opts : Options) (ops : List Op) : Nat := 0x200000 + 1024 + baseCost opts + (ops.map Op.cost).sum

/-- The input is small enough for every difference of two addresses in the image to be far from
leaving 32 bits: symbol values and addends are at most `V`, and a symbol is placed by at most `K`
calls. With `V` below 64 MiB and `K = 1` there is room for images of about 78 MiB. -/
structure Fits (opts : Options) (ops : List Op) (V K : Nat) : Prop where
  values : ∀ s sec n path r, Op.sym s sec n path r ∈ ops → s.st_value ≤ V
  addends : ∀ rel y sr path, Op.reloc rel y sr path ∈ ops → -(V : Int) ≤ rel.r_addend ∧ rel.r_addend ≤ V
  mentions : ∀ r, (ops.filter (Op.attaches r)).length ≤ K
  small : 4 * (V + (K + 5) * reach opts ops) < 2 ^ 31

/-- Well-formed calls of moderate size: relocations of the kinds the linker implements inside the data
they are about, few kinds of section flags, and moderate sizes. -/
structure WellFormed (opts : Options) (ops : List Op) (w : Writer) (F : List Nat) (V K : Nat) : Prop where
  good : GoodInputs ops
  symbols : RelocSyms ops
  dyns : NamedDyns ops
  clean : SymsClean ops
  nameless : SectionsNameless ops
  relocs : RelocsOk ops w
  flags : ∀ n sh d r, Op.push n sh d r ∈ ops → sh.sh_flags ∈ F
  kinds : F.length ≤ 1000
  fits : Fits opts ops V K

/-- Inputs a link cannot choke on: well-formed ones without relocations in sections that are not loaded. -/
structure Digestible (opts : Options) (ops : List Op) (w : Writer) (F : List Nat) (V K : Nat) : Prop extends WellFormed opts ops w F V K where
  loaded : RelocsLoaded ops

end Spec
end Dld
