import Verif.Vts.ParserModel
import Mathlib.Data.Nat.Digits.Defs
import Mathlib.Tactic.NormNum

/-!
# C48, C63-C65: reading sequents
-/

namespace Verif.Vts

/-! ### The syntax -/

/-- White space. -/
def Ws (w : List Char) : Prop := ∀ c ∈ w, c = ' ' ∨ c = '\n' ∨ c = '\t' ∨ c = '\r'

/-- A nonempty string of digits. -/
def Digits (ds : List Char) : Prop := ds ≠ [] ∧ ∀ c ∈ ds, '0'.toNat ≤ c.toNat ∧ c.toNat ≤ '9'.toNat

/-- The number denoted by a string of digits. -/
def decimal (ds : List Char) : ℕ := Nat.ofDigits 10 (ds.reverse.map fun c => c.toNat - '0'.toNat)

/-- Letters and the underscore. -/
def Letter (c : Char) : Prop :=
  ('a'.toNat ≤ c.toNat ∧ c.toNat ≤ 'z'.toNat) ∨ ('A'.toNat ≤ c.toNat ∧ c.toNat ≤ 'Z'.toNat) ∨ c = '_'

/-- Names of variables: a letter, then letters and digits. -/
def Name (s : List Char) : Prop :=
  ∃ c r, s = c :: r ∧ Letter c ∧ ∀ d ∈ r, Letter d ∨ ('0'.toNat ≤ d.toNat ∧ d.toNat ≤ '9'.toNat)

/-- The texts of a term: numbers `12`, `12.`, `1.25`, with or without a sign, names, and operators applied to terms. -/
inductive TermText : List Char → Tm → Prop
  | int (ds : List Char) (dot : Bool) (h : Digits ds) :
      TermText (ds ++ if dot then ['.'] else []) (.int (decimal ds))
  | nint (ds : List Char) (dot : Bool) (h : Digits ds) :
      TermText ('-' :: (ds ++ if dot then ['.'] else [])) (.int (-decimal ds))
  | dec (ds es : List Char) (h : Digits ds) (h' : Digits es) :
      TermText (ds ++ '.' :: es) (.dec (decimal ds + decimal es / 10 ^ es.length))
  | ndec (ds es : List Char) (h : Digits ds) (h' : Digits es) :
      TermText ('-' :: (ds ++ '.' :: es)) (.dec (-(decimal ds + decimal es / 10 ^ es.length)))
  | var (s : List Char) (h : Name s) : TermText s (.var s)
  | add (w₁ w₂ w₃ w₄ a b : List Char) (ta tb : Tm) (h₁ : Ws w₁) (h₂ : Ws w₂) (h₃ : Ws w₃) (h₄ : Ws w₄) (hw : w₃ ≠ [])
      (ha : TermText a ta) (hb : TermText b tb) :
      TermText ('(' :: (w₁ ++ '+' :: (w₂ ++ (a ++ (w₃ ++ (b ++ (w₄ ++ [')']))))))) (.add ta tb)
  | mul (w₁ w₂ w₃ w₄ a b : List Char) (ta tb : Tm) (h₁ : Ws w₁) (h₂ : Ws w₂) (h₃ : Ws w₃) (h₄ : Ws w₄) (hw : w₃ ≠ [])
      (ha : TermText a ta) (hb : TermText b tb) :
      TermText ('(' :: (w₁ ++ '*' :: (w₂ ++ (a ++ (w₃ ++ (b ++ (w₄ ++ [')']))))))) (.mul ta tb)
  | sub (w₁ w₂ w₃ w₄ a b : List Char) (ta tb : Tm) (h₁ : Ws w₁) (h₂ : Ws w₂) (h₃ : Ws w₃) (h₄ : Ws w₄) (hw : w₃ ≠ [])
      (ha : TermText a ta) (hb : TermText b tb) :
      TermText ('(' :: (w₁ ++ '-' :: (w₂ ++ (a ++ (w₃ ++ (b ++ (w₄ ++ [')']))))))) (.sub ta tb)
  | div (w₁ w₂ w₃ w₄ a b : List Char) (ta tb : Tm) (h₁ : Ws w₁) (h₂ : Ws w₂) (h₃ : Ws w₃) (h₄ : Ws w₄) (hw : w₃ ≠ [])
      (ha : TermText a ta) (hb : TermText b tb) :
      TermText ('(' :: (w₁ ++ '/' :: (w₂ ++ (a ++ (w₃ ++ (b ++ (w₄ ++ [')']))))))) (.div ta tb)
  | neg (w₁ w₂ w₄ a : List Char) (ta : Tm) (h₁ : Ws w₁) (h₂ : Ws w₂) (h₄ : Ws w₄) (ha : TermText a ta) :
      TermText ('(' :: (w₁ ++ '-' :: (w₂ ++ (a ++ (w₄ ++ [')']))))) (.neg ta)

/-- The symbols of the relations. -/
def relSymbol : RelKind → List Char
  | .le => ['<', '=']
  | .lt => ['<']
  | .eq => ['=']
  | .ne => ['!', '=']
  | .ge => ['>', '=']
  | .gt => ['>']

/-- The texts of a relation. -/
inductive RelText : List Char → Rel Tm → Prop
  | mk (w₁ w₂ w₃ w₄ a b : List Char) (k : RelKind) (ta tb : Tm) (h₁ : Ws w₁) (h₂ : Ws w₂) (h₃ : Ws w₃) (h₄ : Ws w₄)
      (hw₂ : w₂ ≠ []) (hw₃ : w₃ ≠ []) (ha : TermText a ta) (hb : TermText b tb) :
      RelText ('(' :: (w₁ ++ (relSymbol k ++ (w₂ ++ (a ++ (w₃ ++ (b ++ (w₄ ++ [')'])))))))) ⟨k, ta, tb⟩

/-- The texts of a list of relations, followed by white space. -/
inductive RelsText : List Char → List (Rel Tm) → Prop
  | nil (w : List Char) (h : Ws w) : RelsText w []
  | cons (w s rest : List Char) (r : Rel Tm) (l : List (Rel Tm)) (h : Ws w) (hs : RelText s r) (hr : RelsText rest l) :
      RelsText (w ++ (s ++ rest)) (r :: l)

/-- The texts of a sequent. -/
inductive SequentText : List Char → Sequent → Prop
  | mk (w₁ w₂ w₃ w₄ w₅ w₆ w₇ name a s : List Char) (la ls : List (Rel Tm)) (h₁ : Ws w₁) (h₂ : Ws w₂) (h₃ : Ws w₃)
      (h₄ : Ws w₄) (h₅ : Ws w₅) (h₆ : Ws w₆) (h₇ : Ws w₇) (hn : '"' ∉ name ∧ '\t' ∉ name) (ha : RelsText a la) (hs : RelsText s ls) :
      SequentText ('(' :: (w₁ ++ ("sequent".toList ++ (w₂ ++ ('"' :: (name ++ ('"' :: (w₃ ++ ('(' :: (w₄ ++
        ("antecedent".toList ++ (a ++ (')' :: (w₅ ++ ('(' :: (w₆ ++ ("succedent".toList ++ (s ++ (')' :: (w₇ ++
        [')'])))))))))))))))))))) ⟨name, la, ls⟩

/-- The names in a term. -/
def Tm.names : Tm → List (List Char)
  | .int _ | .dec _ => []
  | .var s => [s]
  | .add a b | .mul a b | .sub a b | .div a b => a.names ++ b.names
  | .neg a => a.names

/-- The number of numbers and names the parser handles when it reads the text of a term: the argument of a unary minus is
read twice. -/
def Tm.work : Tm → ℕ
  | .int _ | .dec _ | .var _ => 1
  | .add a b | .mul a b | .sub a b | .div a b => a.work + b.work
  | .neg a => 2 * a.work

/-- None of the names is `sympy` or `cmd`. -/
def Plain (l : List (List Char)) : Prop := ∀ s ∈ l, s ≠ "sympy".toList ∧ s ≠ "cmd".toList

/-- The names in a relation. -/
def relNames (r : Rel Tm) : List (List Char) := r.lhs.names ++ r.rhs.names

/-! ### Lemmas -/

theorem isWs_iff {c : Char} : isWs c = true ↔ c = ' ' ∨ c = '\n' ∨ c = '\t' ∨ c = '\r' := by
  unfold isWs
  simp [or_assoc]

theorem skipWs_ws {w : List Char} (h : Ws w) (r : List Char) : skipWs (w ++ r) = skipWs r := by
  unfold skipWs
  rw [List.dropWhile_append_of_pos fun c hc => isWs_iff.2 (h c hc)]

theorem skipWs_cons {c : Char} {r : List Char} (h : isWs c = false) : skipWs (c :: r) = c :: r := by
  unfold skipWs
  rw [List.dropWhile_cons, h]
  rfl

theorem skipWs_wc {w : List Char} (hw : Ws w) {c : Char} {r : List Char} (h : isWs c = false) :
    skipWs (w ++ c :: r) = c :: r := by
  rw [skipWs_ws hw, skipWs_cons h]

theorem isNum_iff {c : Char} : isNum c = true ↔ '0'.toNat ≤ c.toNat ∧ c.toNat ≤ '9'.toNat := by
  unfold isNum
  simp

theorem isVar1_iff {c : Char} : isVar1 c = true ↔ Letter c := by
  unfold isVar1 isAlpha Letter
  simp [or_assoc]

theorem isVar_iff {c : Char} : isVar c = true ↔ Letter c ∨ ('0'.toNat ≤ c.toNat ∧ c.toNat ≤ '9'.toNat) := by
  unfold isVar isAlpha Letter
  simp only [Bool.or_eq_true, decide_eq_true_eq, isNum_iff, beq_iff_eq]
  tauto

/-- A character that ends a number or a name. -/
structure EndChar (c : Char) : Prop where
  num : isNum c = false
  var : isVar c = false
  dot : c ≠ '.'

theorem endChar_ws {c : Char} (h : c = ' ' ∨ c = '\n' ∨ c = '\t' ∨ c = '\r') : EndChar c := by
  rcases h with rfl | rfl | rfl | rfl <;> exact ⟨by decide, by decide, by decide⟩

theorem endChar_rpar : EndChar ')' := ⟨by decide, by decide, by decide⟩

/-- What may follow a term. -/
structure Stop (rest : List Char) : Prop where
  head : ∀ c r, rest = c :: r → EndChar c
  dot : ∀ r, skipWs rest ≠ '.' :: r

theorem stop_rpar {w r : List Char} (hw : Ws w) : Stop (w ++ ')' :: r) := by
  refine ⟨?_, ?_⟩
  · intro c r' h
    cases w with
    | nil => cases h; exact endChar_rpar
    | cons d w => cases h; exact endChar_ws (hw _ (by simp))
  · intro r' h
    rw [skipWs_wc hw (by decide)] at h
    cases h

theorem stop_ws {w r : List Char} {c : Char} (hw : Ws w) (hne : w ≠ []) (hc : isWs c = false) (hd : c ≠ '.') :
    Stop (w ++ c :: r) := by
  refine ⟨?_, ?_⟩
  · intro c' r' h
    cases w with
    | nil => simp at hne
    | cons d w => cases h; exact endChar_ws (hw _ (by simp))
  · intro r' h
    rw [skipWs_wc hw hc] at h
    cases h
    exact hd rfl

theorem num_facts {c : Char} (h : isNum c = true) : isWs c = false ∧ c ≠ '.' ∧ c ≠ ')' ∧ c ≠ '-' ∧ c ≠ '(' := by
  refine ⟨?_, ?_, ?_, ?_, ?_⟩
  · cases hw : isWs c with
    | false => rfl
    | true => rcases isWs_iff.1 hw with rfl | rfl | rfl | rfl <;> exact absurd h (by decide)
  all_goals rintro rfl; exact absurd h (by decide)

theorem var1_facts {c : Char} (h : isVar1 c = true) :
    isWs c = false ∧ c ≠ '.' ∧ c ≠ ')' ∧ c ≠ '-' ∧ c ≠ '(' ∧ isNum c = false := by
  refine ⟨?_, ?_, ?_, ?_, ?_, ?_⟩
  · cases hw : isWs c with
    | false => rfl
    | true => rcases isWs_iff.1 hw with rfl | rfl | rfl | rfl <;> exact absurd h (by decide)
  · rintro rfl; exact absurd h (by decide)
  · rintro rfl; exact absurd h (by decide)
  · rintro rfl; exact absurd h (by decide)
  · rintro rfl; exact absurd h (by decide)
  · rw [isVar1_iff] at h
    cases hn : isNum c with
    | false => rfl
    | true =>
      rw [isNum_iff] at hn
      exfalso
      have e1 : 'a'.toNat = 97 := rfl
      have e2 : 'A'.toNat = 65 := rfl
      have e3 : '9'.toNat = 57 := rfl
      rcases h with h | h | h
      · omega
      · omega
      · rw [h] at hn
        exact absurd hn (by decide)

theorem digits_cons {ds : List Char} (h : Digits ds) : ∃ c r, ds = c :: r ∧ isNum c = true ∧ ∀ d ∈ r, isNum d = true := by
  obtain ⟨h1, h2⟩ := h
  cases ds with
  | nil => simp at h1
  | cons c r => exact ⟨c, r, rfl, isNum_iff.2 (h2 c (by simp)), fun d hd => isNum_iff.2 (h2 d (by simp [hd]))⟩

theorem digits1_app {ds rest : List Char} (h : Digits ds) (hr : ∀ c r, rest = c :: r → isNum c = false) :
    digits1 (ds ++ rest) = some (ds, rest) := by
  obtain ⟨c, r, rfl, hc, hr'⟩ := digits_cons h
  have h1 : rest.takeWhile isNum = [] := by
    cases rest with
    | nil => rfl
    | cons a b => rw [List.takeWhile_cons, hr a b rfl]; rfl
  have h2 : rest.dropWhile isNum = rest := by
    cases rest with
    | nil => rfl
    | cons a b => rw [List.dropWhile_cons, hr a b rfl]; rfl
  rw [List.cons_append]
  unfold digits1
  simp only [hc, if_true]
  rw [List.takeWhile_append_of_pos hr', List.dropWhile_append_of_pos hr', h1, h2, List.append_nil]

theorem digits1_none {c : Char} {r : List Char} (h : isNum c = false) : digits1 (c :: r) = none := by
  unfold digits1
  simp [h]

theorem digitsVal_eq (ds : List Char) : digitsVal ds = decimal ds := by
  unfold digitsVal decimal
  rw [List.map_reverse]
  have key : ∀ (ds : List Char) (a : ℕ), ds.foldl (fun n c => 10 * n + (c.toNat - '0'.toNat)) a =
      Nat.ofDigits 10 (ds.map fun c => c.toNat - '0'.toNat).reverse + 10 ^ ds.length * a := by
    intro ds
    induction ds with
    | nil => intro a; simp
    | cons c ds ih =>
      intro a
      rw [List.foldl_cons, ih, List.map_cons, List.reverse_cons, Nat.ofDigits_append, List.length_reverse,
        List.length_map, List.length_cons, Nat.ofDigits_singleton]
      ring
  rw [key]
  simp

/-- The first character of a term. -/
theorem text_first {s : List Char} {t : Tm} (h : TermText s t) :
    ∃ c r, s = c :: r ∧ isWs c = false ∧ c ≠ '.' ∧ c ≠ ')' := by
  have hdig : ∀ {ds : List Char} (rest : List Char), Digits ds →
      ∃ c r, ds ++ rest = c :: r ∧ isWs c = false ∧ c ≠ '.' ∧ c ≠ ')' := by
    intro ds rest h
    obtain ⟨c, r, rfl, hc, _⟩ := digits_cons h
    obtain ⟨h1, h2, h3, _⟩ := num_facts hc
    exact ⟨c, r ++ rest, rfl, h1, h2, h3⟩
  cases h with
  | int ds dot h => exact hdig _ h
  | nint ds dot h => exact ⟨_, _, rfl, by decide, by decide, by decide⟩
  | dec ds es h h' => exact hdig _ h
  | ndec ds es h h' => exact ⟨_, _, rfl, by decide, by decide, by decide⟩
  | var _ h =>
    obtain ⟨c, r, rfl, hc, _⟩ := h
    obtain ⟨h1, h2, h3, _⟩ := var1_facts (isVar1_iff.2 hc)
    exact ⟨c, r, rfl, h1, h2, h3⟩
  | add => exact ⟨_, _, rfl, by decide, by decide, by decide⟩
  | mul => exact ⟨_, _, rfl, by decide, by decide, by decide⟩
  | sub => exact ⟨_, _, rfl, by decide, by decide, by decide⟩
  | div => exact ⟨_, _, rfl, by decide, by decide, by decide⟩
  | neg => exact ⟨_, _, rfl, by decide, by decide, by decide⟩

section Combinators
variable {α β : Type}

theorem bind_some {p : Parser α} {f : α → Parser β} {st st' : PSt} {i r : List Char} {a : α}
    (h : p st i = .ok (st', some (a, r))) : (p >>= f) st i = f a st' r := by
  simp only [bind, h]

theorem bind_none {p : Parser α} {f : α → Parser β} {st st' : PSt} {i : List Char}
    (h : p st i = .ok (st', none)) : (p >>= f) st i = .ok (st', none) := by
  simp only [bind, h]

theorem bind_error {p : Parser α} {f : α → Parser β} {st : PSt} {i : List Char} {e : Err}
    (h : p st i = .error e) : (p >>= f) st i = .error e := by
  simp only [bind, h]

theorem alt_some {p q : Parser α} {st st' : PSt} {i : List Char} {x : α × List Char}
    (h : p st i = .ok (st', some x)) : p.alt q st i = .ok (st', some x) := by
  unfold Parser.alt
  rw [h]

theorem alt_none {p q : Parser α} {st st' : PSt} {i : List Char}
    (h : p st i = .ok (st', none)) : p.alt q st i = q st' i := by
  unfold Parser.alt
  rw [h]

theorem alt_error {p q : Parser α} {st : PSt} {i : List Char} {e : Err}
    (h : p st i = .error e) : p.alt q st i = .error e := by
  unfold Parser.alt
  rw [h]

end Combinators

theorem lit_ok {s : List Char} {st : PSt} {w r : List Char} (hw : Ws w) {c : Char} {s' : List Char} (hs : s = c :: s')
    (hc : isWs c = false) : lit s st (w ++ (s ++ r)) = .ok (st, some ((), r)) := by
  subst hs
  unfold lit tok
  beta_reduce
  rw [List.cons_append, skipWs_wc hw hc]
  have : (c :: s').isPrefixOf (c :: (s' ++ r)) = true := by
    rw [List.isPrefixOf_iff_prefix]
    exact ⟨r, rfl⟩
  rw [if_pos this]
  simp

theorem lit1_ok {c : Char} {st : PSt} {w r : List Char} (hw : Ws w) (hc : isWs c = false) :
    lit [c] st (w ++ c :: r) = .ok (st, some ((), r)) :=
  lit_ok (s := [c]) hw rfl hc

theorem lit1_fail {c d : Char} {st : PSt} {w r : List Char} (hw : Ws w) (hd : isWs d = false) (hne : c ≠ d) :
    lit [c] st (w ++ d :: r) = .ok (st, none) := by
  unfold lit tok
  beta_reduce
  rw [skipWs_wc hw hd, if_neg]
  rw [List.isPrefixOf_iff_prefix, List.cons_prefix_cons]
  exact fun h => hne h.1

theorem lit1_nil {c : Char} {st : PSt} : lit [c] st [] = .ok (st, none) := rfl

theorem useSympy_ok {b : Bool} {st : PSt} {i : List Char} (h : st.shadowed = []) :
    useSympy b st i = .ok (⟨[], if b then st.acts + 1 else st.acts⟩, some ((), i)) := by
  unfold useSympy
  rw [h, if_neg (by simp)]

theorem tok_some {α : Type} {f : List Char → Option (α × List Char)} {st : PSt} {i : List Char} {x : α × List Char}
    (h : f i = some x) : tok f st i = .ok (st, some x) := by unfold tok; rw [h]

theorem tok_none {α : Type} {f : List Char → Option (α × List Char)} {st : PSt} {i : List Char}
    (h : f i = none) : tok f st i = .ok (st, none) := by unfold tok; rw [h]

theorem optNeg_minus {w r : List Char} (hw : Ws w) : optNeg (w ++ '-' :: r) = (true, r) := by
  unfold optNeg
  rw [skipWs_wc hw (by decide)]
  rfl

theorem optNeg_other {w r : List Char} {c : Char} (hw : Ws w) (h : isWs c = false) (hc : c ≠ '-') :
    optNeg (w ++ c :: r) = (false, c :: r) := by
  unfold optNeg
  rw [skipWs_wc hw h]
  split
  · next h' => cases h'; exact absurd rfl hc
  · rfl

/-- A number or name does not begin like this. -/
theorem leaf_fail {w r : List Char} {c : Char} (hw : Ws w) (h : isWs c = false) (hm : c ≠ '-') (hn : isNum c = false)
    (hv : isVar1 c = false) (st : PSt) : ((realP.alt intP).alt varP) st (w ++ c :: r) = .ok (st, none) := by
  have h1 : realP st (w ++ c :: r) = .ok (st, none) := by
    unfold realP
    apply bind_none
    apply tok_none
    unfold realTok
    rw [optNeg_other hw h hm, digits1_none hn]
  have h2 : intP st (w ++ c :: r) = .ok (st, none) := by
    unfold intP
    apply bind_none
    apply tok_none
    unfold intTok
    rw [optNeg_other hw h hm]
    simp only
    rw [skipWs_cons h, digits1_none hn]
  rw [alt_none (by rw [alt_none h1, h2])]
  unfold varP
  apply bind_none
  apply tok_none
  unfold varTok
  rw [skipWs_wc hw h]
  simp [hv]

theorem fn2_wrong {op d : Char} {mk : Tm → Tm → Tm} {T : Parser Tm} {w w₁ r : List Char} (hw : Ws w) (hw₁ : Ws w₁)
    (hd : isWs d = false) (hne : op ≠ d) (st : PSt) :
    fn2 op mk T st (w ++ '(' :: (w₁ ++ d :: r)) = .ok (st, none) := by
  unfold fn2
  rw [bind_some (lit1_ok hw (by decide))]
  exact bind_none (lit1_fail hw₁ hd hne)

theorem fn2_nolpar {op c : Char} {mk : Tm → Tm → Tm} {T : Parser Tm} {w r : List Char} (hw : Ws w)
    (hc : isWs c = false) (hne : c ≠ '(') (st : PSt) : fn2 op mk T st (w ++ c :: r) = .ok (st, none) := by
  unfold fn2
  exact bind_none (lit1_fail hw hc hne.symm)

/-- No term begins with a closing parenthesis. -/
theorem term_rpar {w r : List Char} (hw : Ws w) (n : ℕ) (st : PSt) :
    term (n + 1) st (w ++ ')' :: r) = .ok (st, none) := by
  unfold term
  rw [alt_none (leaf_fail hw (by decide) (by decide) (by decide) (by decide) st),
    alt_none (fn2_nolpar hw (by decide) (by decide) st), alt_none (fn2_nolpar hw (by decide) (by decide) st),
    alt_none (fn2_nolpar hw (by decide) (by decide) st), alt_none (fn2_nolpar hw (by decide) (by decide) st)]
  unfold fnNeg
  exact bind_none (lit1_fail hw (by decide) (by decide))

theorem fn2_ok {op : Char} {mk : Tm → Tm → Tm} {T : Parser Tm} {w w₁ w₂ w₃ w₄ a b rest : List Char} {ta tb : Tm}
    {st : PSt} (hw : Ws w) (hw₁ : Ws w₁) (hw₂ : Ws w₂) (hw₃ : Ws w₃) (hw₄ : Ws w₄) (hne : w₃ ≠ [])
    (hop : isWs op = false) (hst : st.shadowed = []) (hb : TermText b tb)
    (iha : ∀ (st : PSt) (w rest : List Char), st.shadowed = [] → Ws w → Stop rest →
      T st (w ++ (a ++ rest)) = .ok (⟨[], st.acts + ta.work⟩, some (ta, rest)))
    (ihb : ∀ (st : PSt) (w rest : List Char), st.shadowed = [] → Ws w → Stop rest →
      T st (w ++ (b ++ rest)) = .ok (⟨[], st.acts + tb.work⟩, some (tb, rest))) :
    fn2 op mk T st (w ++ ('(' :: (w₁ ++ op :: (w₂ ++ (a ++ (w₃ ++ (b ++ (w₄ ++ [')'])))))) ++ rest)) =
      .ok (⟨[], st.acts + (ta.work + tb.work)⟩, some (mk ta tb, rest)) := by
  have e : w ++ ('(' :: (w₁ ++ op :: (w₂ ++ (a ++ (w₃ ++ (b ++ (w₄ ++ [')'])))))) ++ rest) =
      w ++ '(' :: (w₁ ++ op :: (w₂ ++ (a ++ (w₃ ++ (b ++ (w₄ ++ ')' :: rest)))))) := by simp
  obtain ⟨c, r, hbc, h1, h2, _⟩ := text_first hb
  have e₁ := iha st w₂ (w₃ ++ (b ++ (w₄ ++ ')' :: rest))) hst hw₂ (by
    rw [hbc, List.cons_append]; exact stop_ws hw₃ hne h1 h2)
  have e₂ := ihb ⟨[], st.acts + ta.work⟩ w₃ (w₄ ++ ')' :: rest) rfl hw₃ (stop_rpar hw₄)
  rw [e]
  unfold fn2
  rw [bind_some (lit1_ok hw (by decide)), bind_some (lit1_ok hw₁ hop), bind_some e₁, bind_some e₂,
    bind_some (lit1_ok hw₄ (by decide))]
  simp only [← Nat.add_assoc]
  rfl

/-- A term is read back, for any white space before it and any admissible rest. -/
theorem term_text {s : List Char} {t : Tm} (h : TermText s t) : Plain t.names → ∀ n, s.length ≤ n →
    ∀ (st : PSt) (w rest : List Char), st.shadowed = [] → Ws w → Stop rest →
      term n st (w ++ (s ++ rest)) = .ok (⟨[], st.acts + t.work⟩, some (t, rest)) := by
  induction h with
  | int ds dot h =>
    intro _ n hn st w rest hst hw hr
    obtain ⟨c, r, e, hc, _⟩ := digits_cons h
    obtain ⟨f1, f2, f3, f4, f5⟩ := num_facts hc
    obtain ⟨n, rfl⟩ : ∃ m, n = m + 1 := by
      refine ⟨n - 1, ?_⟩
      rw [e] at hn
      simp at hn
      omega
    have hneg : ∀ x, optNeg (w ++ (ds ++ x)) = (false, ds ++ x) := by
      intro x
      rw [e, List.cons_append, optNeg_other hw f1 f4]
    have hreal : realTok (w ++ ((ds ++ if dot then ['.'] else []) ++ rest)) = none := by
      unfold realTok
      rw [List.append_assoc, hneg]
      cases dot with
      | false =>
        simp only [Bool.false_eq_true, if_false, List.nil_append]
        rw [digits1_app h fun c r hh => (hr.head c r hh).num]
        cases hrest : rest with
        | nil => rfl
        | cons c r =>
          have := (hr.head c r hrest).dot
          split
          · next h' => cases h'; exact absurd rfl this
          · rfl
      | true =>
        simp only [if_true, List.cons_append, List.nil_append]
        rw [digits1_app h fun c r hh => by cases hh; decide]
        simp only
        cases hrest : rest with
        | nil => rfl
        | cons c r => rw [digits1_none (hr.head c r hrest).num]
    have hint : intTok (w ++ ((ds ++ if dot then ['.'] else []) ++ rest)) = some (.int (decimal ds), rest) := by
      unfold intTok
      rw [List.append_assoc, hneg]
      have hsk : ∀ x, skipWs (ds ++ x) = ds ++ x := by
        intro x
        rw [e, List.cons_append, skipWs_cons f1]
      simp only
      rw [hsk]
      cases dot with
      | false =>
        simp only [Bool.false_eq_true, if_false, List.nil_append]
        rw [digits1_app h fun c r hh => (hr.head c r hh).num]
        simp only [signed, Bool.false_eq_true, if_false, digitsVal_eq]
        congr 2
        unfold optDot
        split
        · next h' => exact absurd h' (hr.dot _)
        · rfl
      | true =>
        simp only [if_true, List.cons_append, List.nil_append]
        rw [digits1_app h fun c r hh => by cases hh; decide]
        simp only [signed, Bool.false_eq_true, if_false, digitsVal_eq]
        congr 2
    unfold term
    have h1 : realP st (w ++ ((ds ++ if dot then ['.'] else []) ++ rest)) = .ok (st, none) := by
      unfold realP
      exact bind_none (tok_none hreal)
    have h2 : intP st (w ++ ((ds ++ if dot then ['.'] else []) ++ rest)) =
        .ok (⟨[], st.acts + 1⟩, some (.int (decimal ds), rest)) := by
      unfold intP
      rw [bind_some (tok_some hint), bind_some (useSympy_ok hst)]
      rfl
    exact alt_some (alt_some (by rw [alt_none h1, h2]; rfl))
  | nint ds dot h =>
    intro _ n hn st w rest hst hw hr
    obtain ⟨c, r, e, hc, _⟩ := digits_cons h
    obtain ⟨f1, f2, f3, f4, f5⟩ := num_facts hc
    obtain ⟨n, rfl⟩ : ∃ m, n = m + 1 := ⟨n - 1, by simp at hn; omega⟩
    have hreal : realTok (w ++ ('-' :: (ds ++ if dot then ['.'] else []) ++ rest)) = none := by
      unfold realTok
      rw [List.cons_append, optNeg_minus hw, List.append_assoc]
      cases dot with
      | false =>
        simp only [Bool.false_eq_true, if_false, List.nil_append]
        rw [digits1_app h fun c r hh => (hr.head c r hh).num]
        cases hrest : rest with
        | nil => rfl
        | cons c r =>
          have := (hr.head c r hrest).dot
          split
          · next h' => cases h'; exact absurd rfl this
          · rfl
      | true =>
        simp only [if_true, List.cons_append, List.nil_append]
        rw [digits1_app h fun c r hh => by cases hh; decide]
        simp only
        cases hrest : rest with
        | nil => rfl
        | cons c r => rw [digits1_none (hr.head c r hrest).num]
    have hint : intTok (w ++ ('-' :: (ds ++ if dot then ['.'] else []) ++ rest)) = some (.int (-decimal ds), rest) := by
      unfold intTok
      rw [List.cons_append, optNeg_minus hw, List.append_assoc]
      have hsk : ∀ x, skipWs (ds ++ x) = ds ++ x := by
        intro x
        rw [e, List.cons_append, skipWs_cons f1]
      simp only
      rw [hsk]
      cases dot with
      | false =>
        simp only [Bool.false_eq_true, if_false, List.nil_append]
        rw [digits1_app h fun c r hh => (hr.head c r hh).num]
        simp only [signed, if_true, digitsVal_eq]
        congr 2
        unfold optDot
        split
        · next h' => exact absurd h' (hr.dot _)
        · rfl
      | true =>
        simp only [if_true, List.cons_append, List.nil_append]
        rw [digits1_app h fun c r hh => by cases hh; decide]
        simp only [signed, if_true, digitsVal_eq]
        congr 2
    unfold term
    have h1 : realP st (w ++ ('-' :: (ds ++ if dot then ['.'] else []) ++ rest)) = .ok (st, none) := by
      unfold realP
      exact bind_none (tok_none hreal)
    have h2 : intP st (w ++ ('-' :: (ds ++ if dot then ['.'] else []) ++ rest)) =
        .ok (⟨[], st.acts + 1⟩, some (.int (-decimal ds), rest)) := by
      unfold intP
      rw [bind_some (tok_some hint), bind_some (useSympy_ok hst)]
      rfl
    exact alt_some (alt_some (by rw [alt_none h1, h2]; rfl))
  | dec ds es h h' =>
    intro _ n hn st w rest hst hw hr
    obtain ⟨c, r, e, hc, _⟩ := digits_cons h
    obtain ⟨f1, f2, f3, f4, f5⟩ := num_facts hc
    obtain ⟨n, rfl⟩ : ∃ m, n = m + 1 := ⟨n - 1, by simp at hn; omega⟩
    have hreal : realTok (w ++ ((ds ++ '.' :: es) ++ rest)) =
        some (.dec (decimal ds + decimal es / 10 ^ es.length), rest) := by
      have hneg : optNeg (w ++ (ds ++ ('.' :: es ++ rest))) = (false, ds ++ ('.' :: es ++ rest)) := by
        rw [e, List.cons_append, optNeg_other hw f1 f4]
      unfold realTok
      rw [List.append_assoc, hneg, List.cons_append]
      simp only
      rw [digits1_app h fun c r hh => by cases hh; decide]
      simp only
      rw [digits1_app h' fun c r hh => (hr.head c r hh).num]
      simp only [signed, Bool.false_eq_true, if_false, digitsVal_eq]
    unfold term
    have h1 : realP st (w ++ ((ds ++ '.' :: es) ++ rest)) =
        .ok (⟨[], st.acts + 1⟩, some (.dec (decimal ds + decimal es / 10 ^ es.length), rest)) := by
      unfold realP
      rw [bind_some (tok_some hreal), bind_some (useSympy_ok hst)]
      rfl
    exact alt_some (alt_some (alt_some h1))
  | ndec ds es h h' =>
    intro _ n hn st w rest hst hw hr
    obtain ⟨n, rfl⟩ : ∃ m, n = m + 1 := ⟨n - 1, by simp at hn; omega⟩
    have hreal : realTok (w ++ ('-' :: (ds ++ '.' :: es) ++ rest)) =
        some (.dec (-(decimal ds + decimal es / 10 ^ es.length)), rest) := by
      unfold realTok
      rw [List.cons_append, optNeg_minus hw, List.append_assoc, List.cons_append]
      simp only
      rw [digits1_app h fun c r hh => by cases hh; decide]
      simp only
      rw [digits1_app h' fun c r hh => (hr.head c r hh).num]
      simp only [signed, if_true, digitsVal_eq]
    unfold term
    have h1 : realP st (w ++ ('-' :: (ds ++ '.' :: es) ++ rest)) =
        .ok (⟨[], st.acts + 1⟩, some (.dec (-(decimal ds + decimal es / 10 ^ es.length)), rest)) := by
      unfold realP
      rw [bind_some (tok_some hreal), bind_some (useSympy_ok hst)]
      rfl
    exact alt_some (alt_some (alt_some h1))
  | var s h =>
    intro hnames n hn st w rest hst hw hr
    obtain ⟨c, r, rfl, hc, hr'⟩ := h
    have hc := isVar1_iff.2 hc
    obtain ⟨f1, f2, f3, f4, f5, f6⟩ := var1_facts hc
    obtain ⟨n, rfl⟩ : ∃ m, n = m + 1 := ⟨n - 1, by simp at hn; omega⟩
    have h1 : realP st (w ++ (c :: r ++ rest)) = .ok (st, none) := by
      unfold realP
      apply bind_none
      apply tok_none
      unfold realTok
      rw [List.cons_append, optNeg_other hw f1 f4, digits1_none f6]
    have h2 : intP st (w ++ (c :: r ++ rest)) = .ok (st, none) := by
      unfold intP
      apply bind_none
      apply tok_none
      unfold intTok
      rw [List.cons_append, optNeg_other hw f1 f4]
      simp only
      rw [skipWs_cons f1, digits1_none f6]
    have htok : varTok (w ++ (c :: r ++ rest)) = some (c :: r, rest) := by
      unfold varTok
      rw [List.cons_append, skipWs_wc hw f1]
      simp only [hc, if_true]
      have hall : ∀ d ∈ r, isVar d = true := fun d hd => isVar_iff.2 (hr' d hd)
      rw [List.takeWhile_append_of_pos hall, List.dropWhile_append_of_pos hall]
      cases hrest : rest with
      | nil => simp
      | cons a b =>
        have := (hr.head a b hrest).var
        rw [List.takeWhile_cons, List.dropWhile_cons, this]
        simp
    unfold term
    have h3 : varP st (w ++ (c :: r ++ rest)) = .ok (⟨[], st.acts + 1⟩, some (.var (c :: r), rest)) := by
      unfold varP
      rw [bind_some (tok_some htok), bind_some (useSympy_ok hst)]
      have hne : c :: r ∉ moduleGlobals := by
        obtain ⟨h1, h2⟩ := hnames (c :: r) (by rw [Tm.names]; simp)
        unfold moduleGlobals
        simp only [List.mem_cons, List.not_mem_nil, or_false, not_or]
        exact ⟨h1, h2⟩
      show ((sympyVar (c :: r)) >>= fun _ => _) _ _ = _
      rw [bind_some (st' := ⟨[], st.acts + 1⟩) (a := ()) (r := rest)]
      · rfl
      · unfold sympyVar
        rw [if_neg hne]
        rfl
    exact alt_some (by rw [alt_none (by rw [alt_none h1, h2]), h3]; rfl)
  | add w₁ w₂ w₃ w₄ a b ta tb h₁ h₂ h₃ h₄ hne ha hb iha ihb =>
    intro hnames n hn st w rest hst hw hr
    obtain ⟨n, rfl⟩ : ∃ m, n = m + 1 := ⟨n - 1, by simp at hn; omega⟩
    have hna : Plain ta.names := fun s h => hnames s (by rw [Tm.names]; exact List.mem_append_left _ h)
    have hnb : Plain tb.names := fun s h => hnames s (by rw [Tm.names]; exact List.mem_append_right _ h)
    have hk := fn2_ok (op := '+') (mk := .add) (T := term n) (rest := rest) (st := st) hw h₁ h₂ h₃ h₄ hne (by decide) hst hb
      (iha hna n (by simp at hn; omega)) (ihb hnb n (by simp at hn; omega))
    unfold term
    rw [alt_none (by rw [List.cons_append]; exact leaf_fail hw (by decide) (by decide) (by decide) (by decide) st)]
    exact alt_some hk
  | mul w₁ w₂ w₃ w₄ a b ta tb h₁ h₂ h₃ h₄ hne ha hb iha ihb =>
    intro hnames n hn st w rest hst hw hr
    obtain ⟨n, rfl⟩ : ∃ m, n = m + 1 := ⟨n - 1, by simp at hn; omega⟩
    have hna : Plain ta.names := fun s h => hnames s (by rw [Tm.names]; exact List.mem_append_left _ h)
    have hnb : Plain tb.names := fun s h => hnames s (by rw [Tm.names]; exact List.mem_append_right _ h)
    have hk := fn2_ok (op := '*') (mk := .mul) (T := term n) (rest := rest) (st := st) hw h₁ h₂ h₃ h₄ hne (by decide) hst hb
      (iha hna n (by simp at hn; omega)) (ihb hnb n (by simp at hn; omega))
    unfold term
    rw [alt_none (by rw [List.cons_append]; exact leaf_fail hw (by decide) (by decide) (by decide) (by decide) st),
      alt_none (by rw [List.cons_append, List.append_assoc, List.cons_append]
                   exact fn2_wrong hw h₁ (by decide) (by decide) st)]
    exact alt_some hk
  | sub w₁ w₂ w₃ w₄ a b ta tb h₁ h₂ h₃ h₄ hne ha hb iha ihb =>
    intro hnames n hn st w rest hst hw hr
    obtain ⟨n, rfl⟩ : ∃ m, n = m + 1 := ⟨n - 1, by simp at hn; omega⟩
    have hna : Plain ta.names := fun s h => hnames s (by rw [Tm.names]; exact List.mem_append_left _ h)
    have hnb : Plain tb.names := fun s h => hnames s (by rw [Tm.names]; exact List.mem_append_right _ h)
    have hk := fn2_ok (op := '-') (mk := .sub) (T := term n) (rest := rest) (st := st) hw h₁ h₂ h₃ h₄ hne (by decide) hst hb
      (iha hna n (by simp at hn; omega)) (ihb hnb n (by simp at hn; omega))
    unfold term
    rw [alt_none (by rw [List.cons_append]; exact leaf_fail hw (by decide) (by decide) (by decide) (by decide) st),
      alt_none (by rw [List.cons_append, List.append_assoc, List.cons_append]
                   exact fn2_wrong hw h₁ (by decide) (by decide) st),
      alt_none (by rw [List.cons_append, List.append_assoc, List.cons_append]
                   exact fn2_wrong hw h₁ (by decide) (by decide) st)]
    exact alt_some hk
  | div w₁ w₂ w₃ w₄ a b ta tb h₁ h₂ h₃ h₄ hne ha hb iha ihb =>
    intro hnames n hn st w rest hst hw hr
    obtain ⟨n, rfl⟩ : ∃ m, n = m + 1 := ⟨n - 1, by simp at hn; omega⟩
    have hna : Plain ta.names := fun s h => hnames s (by rw [Tm.names]; exact List.mem_append_left _ h)
    have hnb : Plain tb.names := fun s h => hnames s (by rw [Tm.names]; exact List.mem_append_right _ h)
    have hk := fn2_ok (op := '/') (mk := .div) (T := term n) (rest := rest) (st := st) hw h₁ h₂ h₃ h₄ hne (by decide) hst hb
      (iha hna n (by simp at hn; omega)) (ihb hnb n (by simp at hn; omega))
    unfold term
    rw [alt_none (by rw [List.cons_append]; exact leaf_fail hw (by decide) (by decide) (by decide) (by decide) st),
      alt_none (by rw [List.cons_append, List.append_assoc, List.cons_append]
                   exact fn2_wrong hw h₁ (by decide) (by decide) st),
      alt_none (by rw [List.cons_append, List.append_assoc, List.cons_append]
                   exact fn2_wrong hw h₁ (by decide) (by decide) st),
      alt_none (by rw [List.cons_append, List.append_assoc, List.cons_append]
                   exact fn2_wrong hw h₁ (by decide) (by decide) st)]
    exact alt_some hk
  | neg w₁ w₂ w₄ a ta h₁ h₂ h₄ ha iha =>
    intro hnames n hn st w rest hst hw hr
    obtain ⟨n, rfl⟩ : ∃ m, n = m + 1 := ⟨n - 1, by simp at hn; omega⟩
    have e : w ++ ('(' :: (w₁ ++ '-' :: (w₂ ++ (a ++ (w₄ ++ [')'])))) ++ rest) =
        w ++ '(' :: (w₁ ++ '-' :: (w₂ ++ (a ++ (w₄ ++ ')' :: rest)))) := by simp
    have hlen : a.length ≤ n := by simp at hn; omega
    obtain ⟨m, rfl⟩ : ∃ m, n = m + 1 := by
      obtain ⟨c, r, hac, _⟩ := text_first ha
      rw [hac] at hlen
      simp at hlen
      exact ⟨n - 1, by omega⟩
    have e₁ := iha hnames (m + 1) hlen st w₂ (w₄ ++ ')' :: rest) hst h₂ (stop_rpar h₄)
    have e₂ := iha hnames (m + 1) hlen ⟨[], st.acts + ta.work⟩ w₂ (w₄ ++ ')' :: rest) rfl h₂ (stop_rpar h₄)
    rw [e, term]
    have hsub : fn2 '-' .sub (term (m + 1)) st (w ++ '(' :: (w₁ ++ '-' :: (w₂ ++ (a ++ (w₄ ++ ')' :: rest))))) =
        .ok (⟨[], st.acts + ta.work⟩, none) := by
      unfold fn2
      rw [bind_some (lit1_ok hw (by decide)), bind_some (lit1_ok h₁ (by decide)), bind_some e₁]
      exact bind_none (term_rpar h₄ m _)
    rw [alt_none (leaf_fail hw (by decide) (by decide) (by decide) (by decide) st),
      alt_none (fn2_wrong hw h₁ (by decide) (by decide) st), alt_none (fn2_wrong hw h₁ (by decide) (by decide) st),
      alt_none hsub, alt_none (fn2_wrong hw h₁ (by decide) (by decide) _)]
    unfold fnNeg
    rw [bind_some (lit1_ok hw (by decide)), bind_some (lit1_ok h₁ (by decide)), bind_some e₂,
      bind_some (lit1_ok h₄ (by decide))]
    simp only [Tm.work, Nat.two_mul, ← Nat.add_assoc]
    rfl

theorem tail_ws_head {w r : List Char} (hw : Ws w) (hne : w ≠ []) : ∃ d x, w ++ r = d :: x ∧
    (d = ' ' ∨ d = '\n' ∨ d = '\t' ∨ d = '\r') := by
  cases w with
  | nil => simp at hne
  | cons d w => exact ⟨d, w ++ r, rfl, hw _ (by simp)⟩

/-- Which keyword of a relation is found. -/
theorem kw_sym (k k' : RelKind) {w w₂ r : List Char} (hw : Ws w) (hw₂ : Ws w₂) (hne : w₂ ≠ []) (st : PSt)
    (hk : (k', k) ≠ (RelKind.lt, RelKind.le)) (hk' : (k', k) ≠ (RelKind.gt, RelKind.ge)) :
    kw (relSymbol k') st (w ++ (relSymbol k ++ (w₂ ++ r))) =
      .ok (st, if k' = k then some ((), w₂ ++ r) else none) := by
  obtain ⟨d, x, e, hd⟩ := tail_ws_head (r := r) hw₂ hne
  rw [e]
  unfold kw tok
  have hsk : skipWs (w ++ (relSymbol k ++ d :: x)) = relSymbol k ++ d :: x := by
    cases k <;> exact skipWs_wc hw (by decide)
  beta_reduce
  rw [hsk]
  cases k <;> cases k' <;> first
    | exact absurd rfl hk
    | exact absurd rfl hk'
    | (rcases hd with rfl | rfl | rfl | rfl <;> rfl)

theorem rln_fail {k k' : RelKind} (hkk : k' ≠ k) (hk : (k', k) ≠ (RelKind.lt, RelKind.le))
    (hk' : (k', k) ≠ (RelKind.gt, RelKind.ge)) {w w₁ w₂ r : List Char} (hw : Ws w) (hw₁ : Ws w₁) (hw₂ : Ws w₂)
    (hne : w₂ ≠ []) (n : ℕ) (st : PSt) :
    rln (relSymbol k') k' n st (w ++ '(' :: (w₁ ++ (relSymbol k ++ (w₂ ++ r)))) = .ok (st, none) := by
  unfold rln
  rw [bind_some (lit1_ok hw (by decide))]
  apply bind_none
  rw [kw_sym k k' hw₁ hw₂ hne st hk hk', if_neg hkk]

theorem rln_ok {k : RelKind} {w w₁ w₂ w₃ w₄ a b rest : List Char} {ta tb : Tm} (hw : Ws w) (hw₁ : Ws w₁) (hw₂ : Ws w₂)
    (hw₃ : Ws w₃) (hw₄ : Ws w₄) (hne₂ : w₂ ≠ []) (hne₃ : w₃ ≠ []) (ha : TermText a ta) (hb : TermText b tb)
    (hna : Plain ta.names) (hnb : Plain tb.names) (n : ℕ) (hla : a.length ≤ n) (hlb : b.length ≤ n)
    (st : PSt) (hst : st.shadowed = []) :
    rln (relSymbol k) k n st (w ++ '(' :: (w₁ ++ (relSymbol k ++ (w₂ ++ (a ++ (w₃ ++ (b ++ (w₄ ++ ')' :: rest)))))))) =
      .ok (⟨[], st.acts + (ta.work + tb.work)⟩, some (⟨k, ta, tb⟩, rest)) := by
  obtain ⟨c, r, hbc, h1, h2, _⟩ := text_first hb
  have e₁ := term_text ha hna n hla st w₂ (w₃ ++ (b ++ (w₄ ++ ')' :: rest))) hst hw₂ (by
    rw [hbc, List.cons_append]; exact stop_ws hw₃ hne₃ h1 h2)
  have e₂ := term_text hb hnb n hlb ⟨[], st.acts + ta.work⟩ w₃ (w₄ ++ ')' :: rest) rfl hw₃ (stop_rpar hw₄)
  have ek := kw_sym k k (r := a ++ (w₃ ++ (b ++ (w₄ ++ ')' :: rest)))) hw₁ hw₂ hne₂ st (by cases k <;> simp)
    (by cases k <;> simp)
  rw [if_pos rfl] at ek
  unfold rln
  rw [bind_some (lit1_ok hw (by decide)), bind_some ek, bind_some e₁, bind_some e₂,
    bind_some (lit1_ok hw₄ (by decide)), bind_some (useSympy_ok rfl)]
  simp only [← Nat.add_assoc]
  rfl

/-- The work for a relation. -/
def relWork (r : Rel Tm) : ℕ := r.lhs.work + r.rhs.work

theorem fml_text {s : List Char} {r : Rel Tm} (h : RelText s r) (hn : Plain (relNames r)) (n : ℕ)
    (hl : s.length ≤ n) (st : PSt) (hst : st.shadowed = []) (w rest : List Char) (hw : Ws w) :
    fml n st (w ++ (s ++ rest)) = .ok (⟨[], st.acts + relWork r⟩, some (r, rest)) := by
  obtain ⟨w₁, w₂, w₃, w₄, a, b, k, ta, tb, h₁, h₂, h₃, h₄, hne₂, hne₃, ha, hb⟩ := h
  have e : w ++ ('(' :: (w₁ ++ (relSymbol k ++ (w₂ ++ (a ++ (w₃ ++ (b ++ (w₄ ++ [')']))))))) ++ rest) =
      w ++ '(' :: (w₁ ++ (relSymbol k ++ (w₂ ++ (a ++ (w₃ ++ (b ++ (w₄ ++ ')' :: rest))))))) := by simp
  rw [e]
  have hna : Plain ta.names := fun s h => hn s (List.mem_append_left _ h)
  have hnb : Plain tb.names := fun s h => hn s (List.mem_append_right _ h)
  simp only [List.length_cons, List.length_append] at hl
  have ok := fun st hst => rln_ok (k := k) (rest := rest) hw h₁ h₂ h₃ h₄ hne₂ hne₃ ha hb hna hnb n (by omega) (by omega) st hst
  have fail := fun k' hkk h h' st => rln_fail (k := k) (k' := k') (r := a ++ (w₃ ++ (b ++ (w₄ ++ ')' :: rest))))
    hkk h h' hw h₁ h₂ hne₂ n st
  have ok' := ok st hst
  have hf : fml n = (rln (relSymbol .le) .le n).alt ((rln (relSymbol .lt) .lt n).alt ((rln (relSymbol .eq) .eq n).alt
    ((rln (relSymbol .ne) .ne n).alt ((rln (relSymbol .ge) .ge n).alt (rln (relSymbol .gt) .gt n))))) := rfl
  rw [hf]
  cases k with
  | le => exact alt_some ok'
  | lt => rw [alt_none (fail .le (by decide) (by decide) (by decide) st)]; exact alt_some ok'
  | eq =>
    rw [alt_none (fail .le (by decide) (by decide) (by decide) st),
      alt_none (fail .lt (by decide) (by decide) (by decide) st)]
    exact alt_some ok'
  | ne =>
    rw [alt_none (fail .le (by decide) (by decide) (by decide) st),
      alt_none (fail .lt (by decide) (by decide) (by decide) st),
      alt_none (fail .eq (by decide) (by decide) (by decide) st)]
    exact alt_some ok'
  | ge =>
    rw [alt_none (fail .le (by decide) (by decide) (by decide) st),
      alt_none (fail .lt (by decide) (by decide) (by decide) st),
      alt_none (fail .eq (by decide) (by decide) (by decide) st),
      alt_none (fail .ne (by decide) (by decide) (by decide) st)]
    exact alt_some ok'
  | gt =>
    rw [alt_none (fail .le (by decide) (by decide) (by decide) st),
      alt_none (fail .lt (by decide) (by decide) (by decide) st),
      alt_none (fail .eq (by decide) (by decide) (by decide) st),
      alt_none (fail .ne (by decide) (by decide) (by decide) st),
      alt_none (fail .ge (by decide) (by decide) (by decide) st)]
    exact ok'

theorem rln_rpar {k : List Char} {kind : RelKind} {n : ℕ} {st : PSt} {w r : List Char} (hw : Ws w) :
    rln k kind n st (w ++ ')' :: r) = .ok (st, none) := by
  unfold rln
  exact bind_none (lit1_fail hw (by decide) (by decide))

theorem fml_rpar {n : ℕ} {st : PSt} {w r : List Char} (hw : Ws w) : fml n st (w ++ ')' :: r) = .ok (st, none) := by
  unfold fml
  rw [alt_none (rln_rpar hw), alt_none (rln_rpar hw), alt_none (rln_rpar hw), alt_none (rln_rpar hw),
    alt_none (rln_rpar hw), rln_rpar hw]

/-- The work for a list of relations. -/
def relsWork (l : List (Rel Tm)) : ℕ := (l.map relWork).sum

theorem many_text {s : List Char} {l : List (Rel Tm)} (h : RelsText s l) : (∀ r ∈ l, Plain (relNames r)) →
    ∀ (n m : ℕ), s.length ≤ n → s.length < m → ∀ (st : PSt), st.shadowed = [] → ∀ rest, ∃ w, Ws w ∧
      many (fml n) m st (s ++ ')' :: rest) = .ok (⟨[], st.acts + relsWork l⟩, some (l, w ++ ')' :: rest)) := by
  induction h with
  | nil w hw =>
    intro _ n m _ hm st hst rest
    obtain ⟨m, rfl⟩ : ∃ k, m = k + 1 := ⟨m - 1, by omega⟩
    refine ⟨w, hw, ?_⟩
    unfold many
    rw [fml_rpar hw]
    obtain ⟨b, a⟩ := st
    cases hst
    rfl
  | cons w s rest' r l hw hs hr ih =>
    intro hnames n m hn hm st hst rest
    obtain ⟨m, rfl⟩ : ∃ k, m = k + 1 := ⟨m - 1, by omega⟩
    simp only [List.length_append] at hn hm
    have hpos : 0 < s.length := by cases hs; simp
    have e : w ++ (s ++ rest') ++ ')' :: rest = w ++ (s ++ (rest' ++ ')' :: rest)) := by simp
    obtain ⟨w', hw', e'⟩ := ih (fun r hr => hnames r (by simp [hr])) n m (by omega) (by omega)
      ⟨[], st.acts + relWork r⟩ rfl rest
    refine ⟨w', hw', ?_⟩
    rw [e]
    unfold many
    rw [fml_text hs (hnames r (by simp)) n (by omega) st hst w _ hw]
    simp only
    rw [bind_some e']
    simp only [relsWork, List.map_cons, List.sum_cons, ← Nat.add_assoc]
    rfl

theorem side_text {s : List Char} {l : List (Rel Tm)} (h : RelsText s l) (hnames : ∀ r ∈ l, Plain (relNames r))
    {c : Char} {kwd : List Char} (hc : isWs c = false) {w w₁ : List Char} (hw : Ws w) (hw₁ : Ws w₁) (n : ℕ)
    (hn : s.length < n) (st : PSt) (hst : st.shadowed = []) (rest : List Char) :
    side (c :: kwd) n st (w ++ '(' :: (w₁ ++ (c :: kwd ++ (s ++ ')' :: rest)))) =
      .ok (⟨[], st.acts + relsWork l⟩, some (l, rest)) := by
  obtain ⟨w', hw', e'⟩ := many_text h hnames n n (by omega) hn st hst rest
  unfold side
  rw [bind_some (lit1_ok hw (by decide)), bind_some (lit_ok hw₁ rfl hc), bind_some e',
    bind_some (lit1_ok hw' (by decide))]
  rfl

theorem quoted_text {w name rest : List Char} (hw : Ws w) (hn : '"' ∉ name) (st : PSt) :
    quoted st (w ++ '"' :: (name ++ '"' :: rest)) = .ok (st, some (name, rest)) := by
  unfold quoted
  apply tok_some
  rw [skipWs_wc hw (by decide)]
  have hall : ∀ c ∈ name, (c != '"') = true := by
    intro c hc
    rw [bne_iff_ne]
    rintro rfl
    exact hn hc
  simp only
  rw [List.takeWhile_append_of_pos hall, List.dropWhile_append_of_pos hall, List.takeWhile_cons, List.dropWhile_cons]
  simp

/-- The work for a sequent. -/
def sequentWork (q : Sequent) : ℕ := relsWork q.ante + relsWork q.succ

/-- The names in a sequent. -/
def sequentNames (q : Sequent) : List (List Char) := (q.ante ++ q.succ).flatMap relNames

theorem cmd_text {s : List Char} {q : Sequent} (h : SequentText s q) (hnames : Plain (sequentNames q)) (n : ℕ)
    (hl : s.length ≤ n) (st : PSt) (hst : st.shadowed = []) (rest : List Char) :
    cmd n st (s ++ rest) = .ok (⟨[], st.acts + sequentWork q⟩, some (q, rest)) := by
  obtain ⟨w₁, w₂, w₃, w₄, w₅, w₆, w₇, name, a, b, la, lb, h₁, h₂, h₃, h₄, h₅, h₆, h₇, hn, ha, hb⟩ := h
  have hna : ∀ r ∈ la, Plain (relNames r) := fun r hr s h =>
    hnames s (List.mem_flatMap.2 ⟨r, List.mem_append_left _ hr, h⟩)
  have hnb : ∀ r ∈ lb, Plain (relNames r) := fun r hr s h =>
    hnames s (List.mem_flatMap.2 ⟨r, List.mem_append_right _ hr, h⟩)
  simp only [List.length_cons, List.length_append] at hl
  have e₁ := side_text (c := 'a') (kwd := "ntecedent".toList) ha hna (by decide) h₃ h₄ n (by omega) st hst
    (w₅ ++ '(' :: (w₆ ++ ("succedent".toList ++ (b ++ ')' :: (w₇ ++ ')' :: rest)))))
  have e₂ := side_text (c := 's') (kwd := "uccedent".toList) hb hnb (by decide) h₅ h₆ n (by omega)
    ⟨[], st.acts + relsWork la⟩ rfl (w₇ ++ ')' :: rest)
  have e : ('(' :: (w₁ ++ ("sequent".toList ++ (w₂ ++ ('"' :: (name ++ ('"' :: (w₃ ++ ('(' :: (w₄ ++
        ("antecedent".toList ++ (a ++ (')' :: (w₅ ++ ('(' :: (w₆ ++ ("succedent".toList ++ (b ++ (')' :: (w₇ ++
        [')'])))))))))))))))))))) ++ rest =
      [] ++ '(' :: (w₁ ++ ("sequent".toList ++ (w₂ ++ '"' :: (name ++ '"' :: (w₃ ++ '(' :: (w₄ ++
        ('a' :: "ntecedent".toList ++ (a ++ ')' :: (w₅ ++ '(' :: (w₆ ++ ("succedent".toList ++ (b ++ ')' :: (w₇ ++
        ')' :: rest))))))))))))) := by
    simp only [List.append_assoc, List.cons_append, List.nil_append]
    rfl
  rw [e]
  unfold cmd
  rw [bind_some (lit1_ok (by intro c hc; simp at hc) (by decide)), bind_some (lit_ok (s := "sequent".toList) (c := 's') (s' := "equent".toList) h₁ rfl (by decide)),
    bind_some (quoted_text h₂ hn.1 st)]
  refine (bind_some e₁).trans ?_
  refine (bind_some e₂).trans ?_
  rw [bind_some (lit1_ok h₇ (by decide))]
  simp only [sequentWork, ← Nat.add_assoc]
  rfl

/-! ### Files -/

/-- Text that contains no beginning of a sequent. -/
def Junk (j : List Char) : Prop := ∀ a w t, j ≠ a ++ '(' :: (w ++ ("sequent".toList ++ t)) ∨ ¬ Ws w

/-- The texts of a file with the given sequents: the sequents with other text between them. -/
inductive FileText : List Char → List Sequent → Prop
  | nil (j : List Char) (h : Junk j) : FileText j []
  | cons (j s rest : List Char) (q : Sequent) (l : List Sequent) (h : Junk j) (hs : SequentText s q)
      (hr : FileText rest l) : FileText (j ++ (s ++ rest)) (q :: l)

theorem ws_split (i : List Char) : ∃ w, Ws w ∧ i = w ++ skipWs i := by
  refine ⟨i.takeWhile isWs, fun c hc => isWs_iff.1 ?_, (List.takeWhile_append_dropWhile ..).symm⟩
  exact List.all_eq_true.1 List.all_takeWhile c hc

theorem skipWs_head {i r : List Char} {c : Char} (h : skipWs i = c :: r) : isWs c = false := by
  unfold skipWs at h
  have := List.head?_dropWhile_not isWs i
  rw [h] at this
  simpa using this

theorem junk_tail {w j : List Char} {c : Char} (h : Junk (w ++ c :: j)) : Junk j := by
  intro a v t
  rcases h (w ++ c :: a) v t with h | h
  · left
    rintro rfl
    exact h (by simp)
  · exact Or.inr h

theorem prefix_of_append {p u : List Char} {r : List Char} (hr : r = [] ∨ ∃ x, r = '(' :: x) (hp : '(' ∉ p)
    (h : p <+: u ++ r) : p <+: u := by
  induction p generalizing u with
  | nil => exact List.nil_prefix
  | cons c p ih =>
    cases u with
    | nil =>
      rw [List.nil_append] at h
      rcases hr with rfl | ⟨x, rfl⟩
      · simp at h
      · rw [List.cons_prefix_cons] at h
        exact absurd (by simp [h.1]) hp
    | cons d u =>
      rw [List.cons_append, List.cons_prefix_cons] at h
      rw [List.cons_prefix_cons]
      exact ⟨h.1, ih (fun h => hp (by simp [h])) h.2⟩

theorem cmd_nil (n : ℕ) (st : PSt) : cmd n st [] = .ok (st, none) := by
  unfold cmd
  exact bind_none lit1_nil

theorem nil_ws : Ws [] := fun _ hc => by simp at hc

/-- At a position of junk no sequent begins. -/
theorem cmd_junk {c : Char} {j rest : List Char} (hj : Junk (c :: j)) (hr : rest = [] ∨ ∃ x, rest = '(' :: x)
    (hc : isWs c = false) (n : ℕ) (st : PSt) : cmd n st (c :: (j ++ rest)) = .ok (st, none) := by
  unfold cmd
  by_cases hp : c = '('
  · subst hp
    refine (bind_some (lit1_ok (w := []) (c := '(') nil_ws (by decide))).trans ?_
    apply bind_none
    unfold lit tok
    beta_reduce
    rw [if_neg]
    rw [List.isPrefixOf_iff_prefix]
    intro hpre
    obtain ⟨w, hw, e⟩ := ws_split j
    rw [e, List.append_assoc, skipWs_ws hw] at hpre
    have hpre' : "sequent".toList <+: skipWs j := by
      cases hs : skipWs j with
      | nil =>
        rw [hs, List.nil_append] at hpre
        rcases hr with rfl | ⟨x, rfl⟩
        · exact absurd hpre (by decide)
        · rw [skipWs_cons (by decide)] at hpre
          obtain ⟨t, ht⟩ := hpre
          exact absurd (congrArg List.head? ht) (by simp)
      | cons d u =>
        rw [hs, List.cons_append, skipWs_cons (skipWs_head hs), ← List.cons_append] at hpre
        exact prefix_of_append hr (by decide) hpre
    obtain ⟨t, ht⟩ := hpre'
    rcases hj [] w t with h | h
    · apply h
      rw [ht, ← e]
      rfl
    · exact h hw
  · exact bind_none (lit1_fail (w := []) nil_ws hc (Ne.symm hp))

theorem scan_skip (n k : ℕ) (st : PSt) {i i' : List Char} (h : skipWs i = skipWs i') : scan n k st i = scan n k st i' := by
  cases k with
  | zero => rfl
  | succ k =>
    unfold scan
    rw [h]

theorem scan_junk {rest : List Char} (hr : rest = [] ∨ ∃ x, rest = '(' :: x) (n : ℕ) (st : PSt) :
    ∀ (m : ℕ) (j : List Char), j.length ≤ m → Junk j → ∀ k, (j ++ rest).length < k →
      ∃ k', rest.length < k' ∧ scan n k st (j ++ rest) = scan n k' st rest := by
  intro m
  induction m with
  | zero =>
    intro j hm _ k hk
    have : j = [] := List.length_eq_zero_iff.1 (by omega)
    subst this
    exact ⟨k, hk, rfl⟩
  | succ m ih =>
    intro j hm hj k hk
    obtain ⟨w, hw, e⟩ := ws_split j
    cases hs : skipWs j with
    | nil =>
      rw [List.length_append] at hk
      refine ⟨k, by omega, ?_⟩
      apply scan_skip
      rw [e, hs, List.append_nil, skipWs_ws hw]
    | cons c j' =>
      rw [hs] at e
      have hc := skipWs_head hs
      have hlen : j.length = w.length + (j'.length + 1) := by rw [e]; simp
      rw [List.length_append] at hk
      obtain ⟨k, rfl⟩ : ∃ m, k = m + 1 := ⟨k - 1, by omega⟩
      obtain ⟨k', hk', e'⟩ := ih j' (by omega) (junk_tail (e ▸ hj)) k (by rw [List.length_append]; omega)
      refine ⟨k', hk', ?_⟩
      rw [← e']
      have hsk : skipWs (j ++ rest) = c :: (j' ++ rest) := by
        rw [e, List.append_assoc, List.cons_append, skipWs_wc hw hc]
      have hcj : Junk (c :: j') := by
        intro a v t
        rcases hj (w ++ a) v t with h | h
        · left
          intro h'
          apply h
          rw [e, h']
          simp
        · exact Or.inr h
      rw [scan, hsk, cmd_junk hcj hr hc]

theorem sequent_head {s : List Char} {q : Sequent} (h : SequentText s q) (rest : List Char) :
    ∃ x, s ++ rest = '(' :: x := by
  cases h
  exact ⟨_, rfl⟩

/-- The work for a file. -/
def fileWork (l : List Sequent) : ℕ := (l.map sequentWork).sum

theorem scan_text {text : List Char} {l : List Sequent} (h : FileText text l) :
    (∀ q ∈ l, Plain (sequentNames q)) → ∀ n k, text.length ≤ n → text.length < k → ∀ st : PSt,
      st.shadowed = [] → scan n k st text = .ok (⟨[], st.acts + fileWork l⟩, l) := by
  induction h with
  | nil j hj =>
    intro _ n k _ hk st hst
    obtain ⟨k', hk', e⟩ := scan_junk (rest := []) (Or.inl rfl) n st j.length j le_rfl hj k (by simpa using hk)
    rw [List.append_nil] at e
    obtain ⟨k', rfl⟩ : ∃ m, k' = m + 1 := ⟨k' - 1, by simp at hk'; omega⟩
    rw [e, scan]
    show (match cmd n st [] with
      | .error e => Except.error e
      | .ok (st', some (s, r)) =>
        match scan n k' st' r with
        | .error e => .error e
        | .ok (st'', l) => .ok (st'', s :: l)
      | .ok (st', none) => .ok (st', [])) = _
    rw [cmd_nil]
    obtain ⟨b, a⟩ := st
    cases hst
    rfl
  | cons j s rest q l hj hs hr ih =>
    intro hnames n k hn hk st hst
    obtain ⟨x, hx⟩ := sequent_head hs rest
    obtain ⟨k', hk', e⟩ := scan_junk (rest := s ++ rest) (Or.inr ⟨x, hx⟩) n st j.length j le_rfl hj k hk
    obtain ⟨k', rfl⟩ : ∃ m, k' = m + 1 := ⟨k' - 1, by omega⟩
    have hpos : 0 < s.length := by cases hs; simp
    simp only [List.length_append] at hn hk'
    rw [e, scan]
    have hsk : skipWs (s ++ rest) = s ++ rest := by rw [hx, skipWs_cons (by decide)]
    rw [hsk, cmd_text hs (hnames q (by simp)) n (by omega) st hst rest]
    simp only
    rw [ih (fun q hq => hnames q (by simp [hq])) n k' (by omega) (by omega) _ rfl]
    simp only [fileWork, List.map_cons, List.sum_cons, ← Nat.add_assoc]

theorem parseFile_text {text : List Char} {l : List Sequent} (h : FileText text l)
    (hn : ∀ q ∈ l, Plain (sequentNames q)) (st : PSt) (hst : st.shadowed = []) :
    parseFile st text = .ok (⟨[], st.acts + fileWork l⟩, l) := by
  unfold parseFile
  rw [if_neg (by simp [hst])]
  exact scan_text h hn _ _ (by omega) (by omega) _ hst

/-- C48: every file text is read as exactly the sequents it consists of, in order, with the terms, relations and names as
written. Names of variables other than `sympy` and `cmd` are arbitrary. -/
theorem C48_reading (text : List Char) (l : List Sequent) (h : FileText text l)
    (hn : ∀ q ∈ l, Plain (sequentNames q)) : ∃ st, parseFile ⟨[], 0⟩ text = .ok (st, l) :=
  ⟨_, parseFile_text h hn _ rfl⟩

/-- C48, several files with different names: each name is mapped to the sequents of its file. -/
theorem C48_files (files : List (List Char × List Char)) (ls : List (List Sequent)) (hnd : (files.map Prod.fst).Nodup)
    (h : List.Forall₂ (fun f l => FileText f.2 l ∧ ∀ q ∈ l, Plain (sequentNames q)) files ls) :
    ∃ st, parseFiles ⟨[], 0⟩ files [] = .ok (st, (files.map Prod.fst).zip ls) := by
  have key : ∀ (files : List (List Char × List Char)) (ls : List (List Sequent)) (st : PSt)
      (ret : List (List Char × List Sequent)), st.shadowed = [] → (ret.map Prod.fst ++ files.map Prod.fst).Nodup →
      List.Forall₂ (fun f l => FileText f.2 l ∧ ∀ q ∈ l, Plain (sequentNames q)) files ls →
      ∃ st', parseFiles st files ret = .ok (st', ret ++ (files.map Prod.fst).zip ls) := by
    intro files
    induction files with
    | nil =>
      intro ls st ret _ _ h
      cases h
      exact ⟨st, by simp [parseFiles]⟩
    | cons f files ih =>
      intro ls st ret hst hnd h
      obtain ⟨name, text⟩ := f
      cases h with
      | cons h1 h2 =>
        rename_i l ls
        have hnot : (ret.any fun e => e.1 = name) = false := by
          rw [List.any_eq_false]
          intro e he hen
          rw [List.nodup_append] at hnd
          exact hnd.2.2 e.1 (List.mem_map_of_mem he) name (by simp) (by simpa using hen)
        have hds : dictSet ret name l = ret ++ [(name, l)] := by
          unfold dictSet
          rw [hnot]
          rfl
        obtain ⟨st', e'⟩ := ih ls ⟨[], st.acts + fileWork l⟩ (ret ++ [(name, l)]) rfl (by
          simpa using hnd) h2
        refine ⟨st', ?_⟩
        rw [parseFiles, parseFile_text h1.1 h1.2 st hst]
        simp only [hds]
        rw [e']
        simp
  obtain ⟨st, e⟩ := key files ls ⟨[], 0⟩ [] rfl (by simpa using hnd) h
  exact ⟨st, by simpa using e⟩

end Verif.Vts
