import Verif.Grf.Smt2

/-!
# Model of the printing of sequents in `GRF/grf.sage`

A polynomial is printed by a function `str` (Sage's `str`), a number by `dec`. Texts are lists of characters. `join` is
taken to be `string.join`.
-/

namespace Verif.Grf

/-- `RCF_Atom.__str__` (`grf.sage:62-63`) -/
def Atom.text (str : MPoly → List Char) (a : Atom) : List Char :=
  "[".toList ++ str a.poly ++ " ".toList ++ a.op.toString.toList ++ " 0]".toList

/-- `string.join` -/
def joinText (sep : List Char) : List (List Char) → List Char
  | [] => []
  | [l] => l
  | l :: l' :: ls => l ++ sep ++ joinText sep (l' :: ls)

/-- `num_spaces` in `RCF_Goal.__str__` (`grf.sage:157-168`) -/
def numSpaces (l : ℕ) : List Char :=
  List.replicate (if l ≤ 10 then 6 else if l ≤ 100 then 7 else if l ≤ 1000 then 8 else if l ≤ 10000 then 9 else 10) ' '

/-- `imp_str` in `RCF_Goal.__str__` (`grf.sage:170-174`) -/
def impText (l : ℕ) (g : Goal) : List Char :=
  if g.hyps ≠ [] then "\n        -->\n".toList ++ numSpaces l else []

/-- `RCF_Goal.__str__` (`grf.sage:155-178`); `l` is `num_antecedent_hyps` -/
def Goal.text (str : MPoly → List Char) (l : ℕ) (g : Goal) : List Char :=
  numSpaces l ++ joinText (" /\\\n".toList ++ numSpaces l) (g.hyps.map (Atom.text str)) ++ impText l g ++ g.main.text str

/-- `hyp_str` in `RCF_GD_Decide.__str__` (`grf.sage:764-770`), from number `i` on: the list `o` -/
def hypLines (str : MPoly → List Char) (dec : ℕ → List Char) : ℕ → List Atom → List (List Char)
  | _, [] => []
  | i, h :: hs => ("  H".toList ++ dec i ++ ": ".toList ++ h.text str) :: hypLines str dec (i + 1) hs

/-- `RCF_GD_Decide.__str__` (`grf.sage:762-776`) -/
def State.text (str : MPoly → List Char) (dec : ℕ → List Char) (st : State) : List Char :=
  "\n".toList ++ joinText " \n".toList (hypLines str dec 0 st.hyps)
    ++ "\n|-----------------------------------------  \n".toList ++ st.goal.text str st.hyps.length

/-- the final hypotheses (`grf.sage:976`) -/
def State.finalText (str : MPoly → List Char) (st : State) : List Char :=
  joinText ", ".toList (st.goal.hyps.map (Atom.text str))

end Verif.Grf
