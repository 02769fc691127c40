import Verif.Spec.Cli
import Verif.Model.Process
/-! # What a run of the program is to do -/
namespace Dld.Cli

/-- the words ask for the help text -/
def HelpAsked (ws : List Word) : Prop := (b!"--help", none) ∈ ws ∨ (b!"-h", none) ∈ ws

/-- the output file the words name: the last `-o`, or `./out` -/
def outputOf (ws : List Word) : Bytes := ((valuesOf b!"-o" ws).getLast?).getD b!"./out"

/-- the directories the words name -/
def dirsOf (canon : Bytes → Option Bytes) (ws : List Word) : List Bytes := ws.filterMap (dirOf canon)

/-- `Stands fs dirs n p`: the name `n` stands for the file `p`: `n` itself, or `n`, `libn.so` or `libn.a` in a directory -/
def Stands (fs : Fs) (dirs : List Bytes) (n p : Bytes) : Prop :=
  fs.isFile p = true ∧ (p = n ∨ ∃ d ∈ dirs, p = join d n ∨ p = join d (b!"lib" ++ n ++ b!".so") ∨ p = join d (b!"lib" ++ n ++ b!".a"))

/-- an ELF file (of at least 18 bytes, so that it has a type) -/
def IsElf (c : Bytes) : Prop := 18 ≤ c.length ∧ c.take 4 = [0x7f] ++ b!"ELF"

/-- of type `ET_DYN` -/
def IsDyn (c : Bytes) : Prop := c[16]? = some 3 ∧ c[17]? = some 0

/-- an archive -/
def IsAr (c : Bytes) : Prop := 18 ≤ c.length ∧ c.take 8 = b!"!<arch>" ++ [10]

/-- `Gathers fs dirs inputs objects archives libs`: the inputs are the files listed, each by its kind, in order. -/
inductive Gathers (fs : Fs) (dirs : List Bytes) : List (Bytes × Bool) → List Bytes → List Bytes → List (Bytes × Bool) → Prop where
  | nil : Gathers fs dirs [] [] [] []
  | object {n b p c q es o a l} : Stands fs dirs n p → fs.read p = some c → IsElf c → ¬ IsDyn c → fs.canon p = some q →
      Gathers fs dirs es o a l → Gathers fs dirs ((n, b) :: es) (q :: o) a l
  | archive {n b p c q es o a l} : Stands fs dirs n p → fs.read p = some c → IsAr c → fs.canon p = some q →
      Gathers fs dirs es o a l → Gathers fs dirs ((n, b) :: es) o (q :: a) l
  | lib {n b p c es o a l} : Stands fs dirs n p → fs.read p = some c → IsElf c → IsDyn c →
      Gathers fs dirs es o a l → Gathers fs dirs ((n, b) :: es) o a ((p, b) :: l)

/-- none of the inputs is a linker script -/
def NoScripts (fs : Fs) (dirs : List Bytes) (inputs : List (Bytes × Bool)) : Prop :=
  ∀ e ∈ inputs, ∀ p c, Stands fs dirs e.1 p → fs.read p = some c → IsElf c ∨ IsAr c

/-- the world of a link: the files are as before the run, but the output file has been emptied -/
def worldOf (parseElf : Bytes → Option ElfFile) (parseAr : Bytes → Option ArFile) (fs : Fs) (output : Bytes) : Env :=
  { read := fun p => if p = Path.of output then some [] else fs.read p.full, parseElf, parseAr }

/-- `Wanted ws objects archives libs l`: the linker `l` is set up with the options of the words and these files. -/
structure Wanted (ws : List Word) (objects archives : List Bytes) (libs : List (Bytes × Bool)) (l : Linker) : Prop where
  output : l.options.output = Path.of (outputOf ws)
  dynamicLinker : l.options.dynamicLinker = Path.of (((valuesOf b!"-dynamic-linker" ws).getLast?).getD b!"/lib64/ld-linux-x86-64.so.2")
  hashStyle : l.options.hashStyle = ((stylesOf ws).getLast?).getD .both
  objects : l.objects = objects.map Path.of
  archives : ∀ p, p ∈ l.archives ↔ p ∈ archives.map Path.of
  libs : l.options.sharedLibs = libs.map fun e => (Path.of e.1, e.2)

end Dld.Cli
