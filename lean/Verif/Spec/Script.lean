import Verif.Model.Bytes
/-! # The linker scripts the linker is documented to read -/
namespace Dld.Script

/-- characters of a file name or option -/
def argChars : Bytes := b!"ABCDEFGHIJKLMNOPQRSTUVWXYZabcdefghijklmnopqrstuvwxyz0123456789-._/"

/-- white space -/
def blankChars : Bytes := [9, 10, 11, 12, 13, 32]

/-- only white space -/
def Blank (t : Bytes) : Prop := ∀ c ∈ t, c ∈ blankChars

/-- a file name or option -/
def IsWord (a : Bytes) : Prop := a ≠ [] ∧ ∀ c ∈ a, c ∈ argChars

/-- `Words ws t`: the text `t` is the words `ws` separated by white space -/
inductive Words : List Bytes → Bytes → Prop where
  | nil : Words [] []
  | last {a sp} : IsWord a → Blank sp → Words [a] (a ++ sp)
  | more {a sp ws t} : IsWord a → Blank sp → sp ≠ [] → Words ws t → Words (a :: ws) (a ++ sp ++ t)

/-- `Entries Ok args t`: the text `t` is the inside of a `GROUP` giving the arguments `args`; its own
words satisfy `Ok`. -/
inductive Entries (Ok : Bytes → Prop) : List Bytes → Bytes → Prop where
  | nil : Entries Ok [] []
  | last {a sp} : IsWord a → Ok a → Blank sp → Entries Ok [a] (a ++ sp)
  | word {a sp args t} : IsWord a → Ok a → Blank sp → sp ≠ [] → Entries Ok args t → Entries Ok (a :: args) (a ++ sp ++ t)
  | asNeeded {b1 b2 ws tw sp args t} : Blank b1 → Blank b2 → Words ws tw → Blank sp → Entries Ok args t →
      Entries Ok (b!"--as-needed" :: ws ++ args) (b!"AS_NEEDED" ++ b1 ++ b!"(" ++ b2 ++ tw ++ b!")" ++ sp ++ t)

/-- white space and comments -/
inductive Filler : Bytes → Prop where
  | nil : Filler []
  | blank {c f} : c ∈ blankChars → Filler f → Filler (c :: f)
  | comment {body f} : (∀ c ∈ body, c ≠ 42) → Filler f → Filler (b!"/*" ++ body ++ b!"*/" ++ f)

/-- `ScriptText Ok args t`: the text `t` is a linker script naming the arguments `args`. -/
inductive ScriptText (Ok : Bytes → Prop) : List Bytes → Bytes → Prop where
  | done {f} : Filler f → ScriptText Ok [] f
  | group {f b1 b2 es te args t} : Filler f → Blank b1 → Blank b2 → Entries Ok es te → ScriptText Ok args t →
      ScriptText Ok (es ++ args) (f ++ b!"GROUP" ++ b1 ++ b!"(" ++ b2 ++ te ++ b!")" ++ t)
  | format {f b1 b2 a b3 args t} : Filler f → Blank b1 → Blank b2 → IsWord a → Blank b3 → ScriptText Ok args t →
      ScriptText Ok args (f ++ b!"OUTPUT_FORMAT" ++ b1 ++ b!"(" ++ b2 ++ a ++ b3 ++ b!")" ++ t)

end Dld.Script
