import Verif.Spec.Driver
/-! # Which input an error is about -/
namespace Dld

/-- an object file the link may read: named on the command line, or a member listed in the index of an archive, which is then blamed under the
path of the archive -/
inductive InputAt (env : Env) (l : Linker) : Path → Bytes → ElfFile → Prop
  | object {p : Path} {d : Bytes} {e : ElfFile} (hp : p ∈ l.objects) (hd : env.read p = some d) (he : env.parseElf d = some e)
      (ho : e.isObjectFile = true) : InputAt env l p d e
  | member {p : Path} {data : Bytes} {ar : ArFile} {n : Name} {m d : Bytes} {e : ElfFile} (hp : p ∈ l.archives) (hd : env.read p = some data)
      (ha : env.parseAr data = some ar) (hn : ar.memberOfSymbol n = some m) (hm : ar.get m = some d) (he : env.parseElf d = some e)
      (ho : e.isObjectFile = true) : InputAt env l p d e

/-- symbol number `j` of the file `p` with contents `d` is `s`, named `n`; section symbols do not count -/
def InputSym (env : Env) (l : Linker) (p : Path) (d : Bytes) (j : Nat) (s : Sym) (n : Name) : Prop :=
  ∃ e, InputAt env l p d e ∧ e.syms[j]? = some s ∧ e.symName s.st_name = some n ∧ s.st_info % 16 ≠ 3

/-- The symbols number `j'` of `p'` and number `j` of `p` are different symbols. A file named twice on the command line is read twice, and a
member of an archive can be linked more than once. -/
def OtherSym (l : Linker) (p' : Path) (d' : Bytes) (j' : Nat) (p : Path) (d : Bytes) (j : Nat) : Prop :=
  p' ≠ p ∨ d' ≠ d ∨ j' ≠ j ∨ ¬ l.objects.Nodup ∨ p ∈ l.archives

/-- the names of all symbols of all inputs take less than 4 GiB -/
def NamesSmall (env : Env) (l : Linker) : Prop :=
  ∀ ns : List Name, ns.Nodup → (∀ n ∈ ns, n = [] ∨ ∃ p d e s, InputAt env l p d e ∧ s ∈ e.syms ∧ e.symName s.st_name = some n) →
    (ns.map (·.length + 1)).sum < 2 ^ 32

/-- the relocation types the psABI does not allow in 64-bit objects: `R_X86_64_16`, `PC16`, `8`, `PC8` -/
def nonAbiTypes : List Nat := [12, 13, 14, 15]

/-- The error `k` about the file `p` is justified by the contents of the inputs. -/
inductive Blame (env : Env) (l : Linker) : Path → ErrKind → Prop
  | unreadable {p : Path} (hp : p ∈ l.objects ∨ p ∈ l.options.sharedLibs.map (·.1) ∨ p ∈ l.archives) (h : env.read p = none) : Blame env l p .input
  | object {p : Path} {d : Bytes} (hp : p ∈ l.objects) (hd : env.read p = some d) (he : env.parseElf d = none) : Blame env l p .input
  | archive {p : Path} {d : Bytes} (hp : p ∈ l.archives) (hd : env.read p = some d) (he : env.parseAr d = none) : Blame env l p .input
  | member {p : Path} {data : Bytes} {ar : ArFile} {n : Name} {m d : Bytes} (hp : p ∈ l.archives) (hd : env.read p = some data)
      (ha : env.parseAr data = some ar) (hn : ar.memberOfSymbol n = some m) (hm : ar.get m = some d) (he : env.parseElf d = none) : Blame env l p .input
  | sectionName {p : Path} {d : Bytes} {e : ElfFile} {sh : SectionHeader} (h : InputAt env l p d e) (hs : sh ∈ e.sectionHeaders)
      (ht : sh.sh_type ∉ auxiliaryTypes) (hn : e.secName sh.sh_name = none) : Blame env l p .strtab
  | symbolName {p : Path} {d : Bytes} {e : ElfFile} {s : Sym} (h : InputAt env l p d e) (hs : s ∈ e.syms)
      (hn : e.symName s.st_name = none) : Blame env l p .strtab
  | dynName {p : Path} {d : Bytes} {e : ElfFile} {s : Sym} (hp : p ∈ l.options.sharedLibs.map (·.1)) (hd : env.read p = some d)
      (he : env.parseElf d = some e) (hs : s ∈ e.dynsyms) (hn : e.dynName s.st_name = none) : Blame env l p .strtab
  /-- a global definition of `n` in `p`; another symbol of that name is defined, another one is global, and `ref` has one as well -/
  | duplicate {p ref : Path} {d : Bytes} {j : Nat} {s : Sym} {n : Name} (h : InputSym env l p d j s n) (hb : s.st_info / 16 = 1)
      (h0 : s.st_shndx ≠ 0)
      (hd : NamesSmall env l → ∃ p' d' j' s', InputSym env l p' d' j' s' n ∧ OtherSym l p' d' j' p d j ∧ s'.st_shndx ≠ 0)
      (hg : NamesSmall env l → ∃ p' d' j' s', InputSym env l p' d' j' s' n ∧ OtherSym l p' d' j' p d j ∧ s'.st_info / 16 = 1)
      (hr : NamesSmall env l → n ≠ [] → ∃ d' j' s', InputSym env l ref d' j' s' n ∧ OtherSym l ref d' j' p d j) :
      Blame env l p (.alreadyDefined n ref)
  | reloc {p : Path} {d : Bytes} {e : ElfFile} {k pos j ty : Nat} {rel : InReloc} (h : InputAt env l p d e) (hr : (k, pos, j, rel) ∈ e.relocs)
      (ht : ty = rel.r_type % 2 ^ 32) (hn : ty ∈ nonAbiTypes) : Blame env l p (.nonAbiReloc ty)

end Dld
