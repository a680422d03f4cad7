import Verif.Grf.SmtText
import Verif.Grf.PropsSmt2
import Verif.Grf.PropsInteractive
import Verif.Vts.PropsParser

/-!
# C74-C77: from the text of an input file to the text of the result
-/

set_option linter.unusedSectionVars false

namespace Verif.Grf

open Verif.Vts (isWs skipWs isNum isAlpha digits1 Ws Digits skipWs_ws skipWs_cons skipWs_wc isNum_iff isWs_iff digits_cons
  digits1_app digits1_none num_facts ws_split skipWs_head)

/-! ### The syntax -/

/-- Letters, digits, and `-._:`. -/
def WordChar (c : Char) : Prop :=
  ('a'.toNat ≤ c.toNat ∧ c.toNat ≤ 'z'.toNat) ∨ ('A'.toNat ≤ c.toNat ∧ c.toNat ≤ 'Z'.toNat) ∨
    ('0'.toNat ≤ c.toNat ∧ c.toNat ≤ '9'.toNat) ∨ c = '-' ∨ c = '.' ∨ c = '_' ∨ c = ':'

/-- Names: words of these characters that do not begin with digits and a dot. -/
def Word (s : List Char) : Prop :=
  s ≠ [] ∧ (∀ c ∈ s, WordChar c) ∧ ∀ ds r, Digits ds → s ≠ ds ++ '.' :: r

/-- The operations with two arguments. -/
inductive BinOp
  | add | mul | sub | div

/-- their symbols -/
def BinOp.sym : BinOp → Char
  | .add => '+'
  | .mul => '*'
  | .sub => '-'
  | .div => '/'

/-- their terms -/
def BinOp.tm : BinOp → Tm → Tm → Tm
  | .add => .add
  | .mul => .mul
  | .sub => .sub
  | .div => .div

/-- Where a term may end: a number is not followed by a digit, a name not by a further character of names. -/
def Ends (t : Tm) (rest : List Char) : Prop :=
  match t with
  | .num _ => ∀ c r, rest = c :: r → ¬ ('0'.toNat ≤ c.toNat ∧ c.toNat ≤ '9'.toNat)
  | .word _ => ∀ c r, rest = c :: r → ¬ WordChar c
  | _ => True

/-- The texts of a term: numbers `12.`, `1.25`, `~1.25`, names, and operators applied to terms. The values of the
numbers are given by `num`. -/
inductive TermText (num : Bool → List Char → List Char → ℚ) : List Char → Tm → Prop
  | num (neg : Bool) (ds es : List Char) (h : Digits ds) (h' : es = [] ∨ Digits es) :
      TermText num ((if neg then ['~'] else []) ++ (ds ++ '.' :: es)) (.num (num neg ds es))
  | word (s : List Char) (h : Word s) : TermText num s (.word (String.ofList s))
  | bin (o : BinOp) (w₁ w₂ w₃ w₄ a b : List Char) (ta tb : Tm) (h₁ : Ws w₁) (h₂ : Ws w₂) (h₃ : Ws w₃) (h₄ : Ws w₄)
      (ha : TermText num a ta) (hb : TermText num b tb) (hs : Ends ta (w₃ ++ b)) :
      TermText num ('(' :: (w₁ ++ o.sym :: (w₂ ++ (a ++ (w₃ ++ (b ++ (w₄ ++ [')']))))))) (o.tm ta tb)
  | neg (w₁ w₂ w₄ a : List Char) (ta : Tm) (h₁ : Ws w₁) (h₂ : Ws w₂) (h₄ : Ws w₄) (ha : TermText num a ta) :
      TermText num ('(' :: (w₁ ++ '-' :: (w₂ ++ (a ++ (w₄ ++ [')']))))) (.neg ta)

/-- Characters that may not follow a relation symbol: letters, digits, `_` and `$`. -/
def KwChar (c : Char) : Prop :=
  ('a'.toNat ≤ c.toNat ∧ c.toNat ≤ 'z'.toNat) ∨ ('A'.toNat ≤ c.toNat ∧ c.toNat ≤ 'Z'.toNat) ∨
    ('0'.toNat ≤ c.toNat ∧ c.toNat ≤ '9'.toNat) ∨ c = '_' ∨ c = '$'

/-- The symbols of the relations. -/
def relSym : Op → List Char
  | .gt => ['>']
  | .lt => ['<']
  | .le => ['<', '=']
  | .ge => ['>', '=']
  | .eq => ['=']
  | .ne => ['!', '=']

/-- The texts of a formula. -/
inductive RelText (num : Bool → List Char → List Char → ℚ) : List Char → Fm → Prop
  | mk (w₁ w₂ w₃ w₄ a b : List Char) (op : Op) (ta tb : Tm) (h₁ : Ws w₁) (h₂ : Ws w₂) (h₃ : Ws w₃) (h₄ : Ws w₄)
      (ha : TermText num a ta) (hb : TermText num b tb) (hk : ∀ c r, w₂ ++ a = c :: r → ¬ KwChar c)
      (hs : Ends ta (w₃ ++ b)) :
      RelText num ('(' :: (w₁ ++ (relSym op ++ (w₂ ++ (a ++ (w₃ ++ (b ++ (w₄ ++ [')']))))))) ) ⟨op, ta, tb⟩

/-- The texts of a list of formulas: formulas with white space around them. -/
inductive RelsText (num : Bool → List Char → List Char → ℚ) : List Char → List Fm → Prop
  | nil (w : List Char) (hw : Ws w) : RelsText num w []
  | cons (w s rest : List Char) (f : Fm) (l : List Fm) (hw : Ws w) (hs : RelText num s f) (hr : RelsText num rest l) :
      RelsText num (w ++ (s ++ rest)) (f :: l)

/-- A sequent of a file. -/
structure FileSeq where
  name : List Char
  ante : List Fm
  succ : List Fm

/-- The texts of a sequent. -/
inductive SequentText (num : Bool → List Char → List Char → ℚ) : List Char → FileSeq → Prop
  | mk (w₁ w₂ w₃ w₄ w₅ w₆ w₇ name a b : List Char) (la lb : List Fm) (h₁ : Ws w₁) (h₂ : Ws w₂) (h₃ : Ws w₃) (h₄ : Ws w₄)
      (h₅ : Ws w₅) (h₆ : Ws w₆) (h₇ : Ws w₇) (hn : '"' ∉ name) (ha : RelsText num a la) (hb : RelsText num b lb) :
      SequentText num ('(' :: (w₁ ++ ("sequent".toList ++ (w₂ ++ '"' :: (name ++ '"' :: (w₃ ++ '(' :: (w₄ ++
        ("antecedent".toList ++ (a ++ ')' :: (w₅ ++ '(' :: (w₆ ++ ("succedent".toList ++ (b ++ ')' :: (w₇ ++
        [')'])))))))))))))) ⟨name, la, lb⟩

/-- The texts of a file: sequents with white space around them. -/
inductive FileText (num : Bool → List Char → List Char → ℚ) : List Char → List FileSeq → Prop
  | nil (w : List Char) (hw : Ws w) : FileText num w []
  | cons (w s rest : List Char) (q : FileSeq) (l : List FileSeq) (hw : Ws w) (hs : SequentText num s q)
      (hr : FileText num rest l) : FileText num (w ++ (s ++ rest)) (q :: l)

/-! ### Lemmas -/

theorem isWord_iff {c : Char} : isWord c = true ↔ WordChar c := by
  unfold isWord isAlpha WordChar
  simp only [Bool.or_eq_true, decide_eq_true_eq, isNum_iff, beq_iff_eq]
  tauto

theorem word_facts {c : Char} (h : isWord c = true) : isWs c = false ∧ c ≠ ')' ∧ c ≠ '(' ∧ c ≠ '~' ∧ c ≠ '"' := by
  refine ⟨?_, ?_, ?_, ?_, ?_⟩
  · cases hw : isWs c with
    | false => rfl
    | true => rcases isWs_iff.1 hw with rfl | rfl | rfl | rfl <;> exact absurd h (by decide)
  all_goals rintro rfl; exact absurd h (by decide)

theorem isWord_of_isNum {c : Char} (h : isNum c = true) : isWord c = true := by
  unfold isWord; simp [h]

theorem ends_nonword {t : Tm} {rest : List Char} (h : ∀ c r, rest = c :: r → isWord c = false) : Ends t rest := by
  unfold Ends
  split
  · intro c r hr hc
    have := isWord_of_isNum (isNum_iff.2 hc)
    rw [h c r hr] at this
    cases this
  · intro c r hr hc
    have := isWord_iff.2 hc
    rw [h c r hr] at this
    cases this
  · trivial

theorem ends_rpar {t : Tm} {w r : List Char} (hw : Ws w) : Ends t (w ++ ')' :: r) := by
  apply ends_nonword
  intro c r' h
  cases w with
  | nil => cases h; decide
  | cons d w =>
    cases h
    cases hd : isWord c with
    | false => rfl
    | true =>
      have := (word_facts hd).1
      rw [isWs_iff.2 (hw c (by simp))] at this
      cases this

theorem stext_first {num : Bool → List Char → List Char → ℚ} {s : List Char} {t : Tm} (h : TermText num s t) :
    ∃ c r, s = c :: r ∧ isWs c = false ∧ c ≠ ')' ∧ c ≠ '=' := by
  cases h with
  | num neg ds es h h' =>
    obtain ⟨c, r, rfl, hc, _⟩ := digits_cons h
    cases neg with
    | true => exact ⟨'~', _, rfl, by decide, by decide, by decide⟩
    | false =>
      obtain ⟨h1, _, h3, _⟩ := num_facts hc
      exact ⟨c, _, rfl, h1, h3, by rintro rfl; exact absurd hc (by decide)⟩
  | word s h =>
    obtain ⟨h1, h2, _⟩ := h
    cases s with
    | nil => simp at h1
    | cons c r =>
      have hc := isWord_iff.2 (h2 c (by simp))
      obtain ⟨f1, f2, _⟩ := word_facts hc
      exact ⟨c, r, rfl, f1, f2, by rintro rfl; exact absurd hc (by decide)⟩
  | bin => exact ⟨_, _, rfl, by decide, by decide, by decide⟩
  | neg => exact ⟨_, _, rfl, by decide, by decide, by decide⟩

theorem ends_append {num : Bool → List Char → List Char → ℚ} {t tb : Tm} {w b : List Char} (hb : TermText num b tb)
    (h : Ends t (w ++ b)) (x : List Char) : Ends t (w ++ (b ++ x)) := by
  obtain ⟨c, r, rfl, _⟩ := stext_first hb
  have e : ∃ d y, (w ++ c :: r) = d :: y ∧ w ++ (c :: r ++ x) = d :: (y ++ x) := by
    cases w with
    | nil => exact ⟨c, r, rfl, rfl⟩
    | cons d w => exact ⟨d, w ++ c :: r, rfl, by simp⟩
  obtain ⟨d, y, e1, e2⟩ := e
  rw [e2]
  rw [e1] at h
  unfold Ends at h ⊢
  split
  · intro c' r' hr
    cases hr
    exact h d y rfl
  · intro c' r' hr
    cases hr
    exact h d y rfl
  · trivial

section Combinators
variable {σ α β : Type}

theorem sbind_some {p : SP σ α} {f : α → SP σ β} {st st' : σ} {i r : List Char} {a : α}
    (h : p st i = .ok (st', some (a, r))) : (p >>= f) st i = f a st' r := by
  simp only [bind, h]

theorem sbind_none {p : SP σ α} {f : α → SP σ β} {st st' : σ} {i : List Char}
    (h : p st i = .ok (st', none)) : (p >>= f) st i = .ok (st', none) := by
  simp only [bind, h]

theorem sbind_error {p : SP σ α} {f : α → SP σ β} {st : σ} {i : List Char} {e : SErr}
    (h : p st i = .error e) : (p >>= f) st i = .error e := by
  simp only [bind, h]

theorem salt_some {p q : SP σ α} {st st' : σ} {i : List Char} {x : α × List Char}
    (h : p st i = .ok (st', some x)) : p.alt q st i = .ok (st', some x) := by
  unfold SP.alt
  rw [h]

theorem salt_none {p q : SP σ α} {st st' : σ} {i : List Char}
    (h : p st i = .ok (st', none)) : p.alt q st i = q st' i := by
  unfold SP.alt
  rw [h]

theorem salt_error {p q : SP σ α} {st : σ} {i : List Char} {e : SErr}
    (h : p st i = .error e) : p.alt q st i = .error e := by
  unfold SP.alt
  rw [h]

/-- What is not a failure is the result. -/
theorem salt_of {p q : SP σ α} {st : σ} {i : List Char} {x : Except SErr (σ × Option (α × List Char))}
    (h : p st i = x) (hx : ∀ st', x ≠ .ok (st', none)) : p.alt q st i = x := by
  unfold SP.alt
  rw [h]
  cases x with
  | error e => rfl
  | ok y =>
    obtain ⟨st', o⟩ := y
    cases o with
    | none => exact absurd rfl (hx st')
    | some z => rfl

theorem sbind_ok {p : SP σ α} {f : α → SP σ β} {st st' : σ} {i : List Char} {x : β × List Char}
    (h : (p >>= f) st i = .ok (st', some x)) : ∃ s a r, p st i = .ok (s, some (a, r)) ∧ f a s r = .ok (st', some x) := by
  simp only [bind] at h
  split at h
  · cases h
  · cases h
  · next s a r h' => exact ⟨s, a, r, h', h⟩

theorem salt_ok {p q : SP σ α} {st st' : σ} {i : List Char} {x : α × List Char}
    (h : p.alt q st i = .ok (st', some x)) :
    p st i = .ok (st', some x) ∨ ∃ s, p st i = .ok (s, none) ∧ q s i = .ok (st', some x) := by
  unfold SP.alt at h
  split at h
  · cases h
  · next h' => cases h; exact Or.inl h'
  · next s h' => exact Or.inr ⟨s, h', h⟩

theorem stok_some {f : List Char → Option (α × List Char)} {st : σ} {i : List Char} {x : α × List Char}
    (h : f i = some x) : stok f st i = .ok (st, some x) := by unfold stok; rw [h]

theorem stok_none {f : List Char → Option (α × List Char)} {st : σ} {i : List Char}
    (h : f i = none) : stok f st i = .ok (st, none) := by unfold stok; rw [h]

theorem slit_ok {s : List Char} {st : σ} {w r : List Char} (hw : Ws w) {c : Char} {s' : List Char} (hs : s = c :: s')
    (hc : isWs c = false) : slit s st (w ++ (s ++ r)) = .ok (st, some ((), r)) := by
  subst hs
  unfold slit stok
  beta_reduce
  rw [List.cons_append, skipWs_wc hw hc]
  have : (c :: s').isPrefixOf (c :: (s' ++ r)) = true := by
    rw [List.isPrefixOf_iff_prefix]
    exact ⟨r, rfl⟩
  rw [if_pos this]
  simp

theorem slit1_ok {c : Char} {st : σ} {w r : List Char} (hw : Ws w) (hc : isWs c = false) :
    slit [c] st (w ++ c :: r) = .ok (st, some ((), r)) :=
  slit_ok (s := [c]) hw rfl hc

theorem slit1_fail {c d : Char} {st : σ} {w r : List Char} (hw : Ws w) (hd : isWs d = false) (hne : c ≠ d) :
    slit [c] st (w ++ d :: r) = .ok (st, none) := by
  unfold slit stok
  beta_reduce
  rw [skipWs_wc hw hd, if_neg]
  rw [List.isPrefixOf_iff_prefix, List.cons_prefix_cons]
  exact fun h => hne h.1

end Combinators

/-- The outcome of parse actions that do not fail to match. -/
def readOut {α : Type} (x : Except GErr (α × Ctx)) (rest : List Char) : Except SErr (Ctx × Option (α × List Char)) :=
  match x with
  | .error e => .error (.act (.loop e))
  | .ok (p, c) => .ok (c, some (p, rest))

theorem readOut_ne {α : Type} {x : Except GErr (α × Ctx)} {rest : List Char} (st' : Ctx) :
    readOut x rest ≠ .ok (st', none) := by
  unfold readOut
  split <;> simp

/-! Reading again what has been read. -/

theorem getVar_le (c : Ctx) (s : String) : CtxLe c (c.getVar s).2 := by
  intro t i h
  unfold Ctx.getVar
  split
  · exact h
  · next hs =>
    have : (t == s) = false := by
      rw [beq_eq_false_iff_ne]
      rintro rfl
      rw [hs] at h
      cases h
    split
    · show List.lookup t (_ :: _) = _
      rw [List.lookup_cons, this]
      exact h
    · show List.lookup t (_ :: _) = _
      rw [List.lookup_cons, this]
      exact h

theorem getVar_lookup (c : Ctx) (s : String) : (c.getVar s).2.varMap.lookup s = some (c.getVar s).1 := by
  unfold Ctx.getVar
  split
  · next i h => exact h
  · split
    · show List.lookup s (_ :: _) = _
      rw [List.lookup_cons, beq_self_eq_true]
    · show List.lookup s (_ :: _) = _
      rw [List.lookup_cons, beq_self_eq_true]

theorem CtxLe.refl (c : Ctx) : CtxLe c c := fun _ _ h => h

theorem CtxLe.trans {a b c : Ctx} (h : CtxLe a b) (h' : CtxLe b c) : CtxLe a c := fun t i x => h' t i (h t i x)

theorem readTm_again {quot : MPoly → MPoly → Option MPoly} : ∀ (t : Tm) (c c' : Ctx) (p : MPoly),
    readTm quot c t = .ok (p, c') →
    CtxLe c c' ∧ ∀ c'', CtxLe c' c'' → readTm quot c'' t = .ok (p, c'') := by
  have bin : ∀ (a b : Tm) (f : MPoly → MPoly → Except GErr MPoly),
      (∀ (c c' : Ctx) (p : MPoly), readTm quot c a = .ok (p, c') →
        CtxLe c c' ∧ ∀ c'', CtxLe c' c'' → readTm quot c'' a = .ok (p, c'')) →
      (∀ (c c' : Ctx) (p : MPoly), readTm quot c b = .ok (p, c') →
        CtxLe c c' ∧ ∀ c'', CtxLe c' c'' → readTm quot c'' b = .ok (p, c'')) →
      ∀ (c c' : Ctx) (p : MPoly), (do
        let r ← readTm quot c a
        let r' ← readTm quot r.2 b
        let q ← f r.1 r'.1
        .ok (q, r'.2)) = .ok (p, c') →
        CtxLe c c' ∧ ∀ c'', CtxLe c' c'' → (do
          let r ← readTm quot c'' a
          let r' ← readTm quot r.2 b
          let q ← f r.1 r'.1
          .ok (q, r'.2)) = .ok (p, c'') := by
    intro a b f iha ihb c c' p h
    simp only [bind, Except.bind] at h ⊢
    split at h
    · cases h
    · next r hr =>
      split at h
      · cases h
      · next r' hr' =>
        split at h
        · cases h
        · next q hq =>
          cases h
          obtain ⟨h1, h2⟩ := iha c r.2 r.1 hr
          obtain ⟨h3, h4⟩ := ihb r.2 r'.2 r'.1 hr'
          refine ⟨h1.trans h3, fun c'' hc => ?_⟩
          rw [h2 c'' (h3.trans hc)]
          simp only
          rw [h4 c'' hc]
          simp only
          rw [hq]
  intro t
  induction t with
  | num q =>
    intro c c' p h
    cases h
    exact ⟨CtxLe.refl _, fun c'' _ => rfl⟩
  | word s =>
    intro c c' p h
    cases h
    refine ⟨getVar_le c s, fun c'' hc => ?_⟩
    have hl := hc s _ (getVar_lookup c s)
    have : c''.getVar s = ((c.getVar s).1, c'') := by
      conv_lhs => unfold Ctx.getVar
      rw [hl]
    simp only [readTm]
    rw [this]
  | add a b iha ihb => intro c c' p h; exact bin a b (fun x y => .ok (x.add y)) iha ihb c c' p h
  | mul a b iha ihb => intro c c' p h; exact bin a b (fun x y => .ok (x.mul y)) iha ihb c c' p h
  | sub a b iha ihb => intro c c' p h; exact bin a b (fun x y => .ok (x.sub y)) iha ihb c c' p h
  | neg a iha =>
    intro c c' p h
    simp only [readTm, bind, Except.bind] at h ⊢
    split at h
    · cases h
    · next r hr =>
      cases h
      obtain ⟨h1, h2⟩ := iha c r.2 r.1 hr
      refine ⟨h1, fun c'' hc => ?_⟩
      rw [h2 c'' hc]
  | div a b iha ihb =>
    intro c c' p h
    have e : ∀ c, readTm quot c (.div a b) = (do
        let r ← readTm quot c a
        let r' ← readTm quot r.2 b
        let q ← (match quot r.1 r'.1 with
          | none => Except.error GErr.typeError
          | some q => .ok q)
        .ok (q, r'.2)) := by
      intro c
      simp only [readTm, bind, Except.bind]
      cases readTm quot c a with
      | error e => rfl
      | ok r =>
        simp only
        cases readTm quot r.2 b with
        | error e => rfl
        | ok r' =>
          simp only
          cases quot r.1 r'.1 <;> rfl
    rw [e] at h
    obtain ⟨h1, h2⟩ := bin a b (fun x y => match quot x y with
      | none => Except.error GErr.typeError
      | some q => .ok q) iha ihb c c' p h
    refine ⟨h1, fun c'' hc => ?_⟩
    rw [e]
    exact h2 c'' hc

section
variable {K : Type} [Field K] [LinearOrder K] [IsStrictOrderedRing K]

/-! ### Reading terms -/

theorem optTilde_other {w r : List Char} {c : Char} (hw : Ws w) (h : isWs c = false) (hc : c ≠ '~') :
    optTilde (w ++ c :: r) = (false, c :: r) := by
  unfold optTilde
  rw [skipWs_wc hw h]
  split
  · next h' => cases h'; exact absurd rfl hc
  · rfl

theorem numTok_fail {w r : List Char} {c : Char} (hw : Ws w) (h : isWs c = false) (hc : c ≠ '~') (hn : isNum c = false) :
    numTok (w ++ c :: r) = none := by
  unfold numTok
  rw [optTilde_other hw h hc, digits1_none hn]

theorem leafs_fail (E : SmtEnv K) {w r : List Char} {c : Char} (hw : Ws w) (h : isWs c = false) (hc : c ≠ '~')
    (hn : isWord c = false) (st : Ctx) {q : SP Ctx MPoly} :
    (numP E).alt (wordP.alt q) st (w ++ c :: r) = q st (w ++ c :: r) := by
  have hnum : isNum c = false := by
    cases h' : isNum c with
    | false => rfl
    | true => rw [isWord_of_isNum h'] at hn; cases hn
  have h1 : numP E st (w ++ c :: r) = .ok (st, none) := by
    unfold numP
    exact sbind_none (stok_none (numTok_fail hw h hc hnum))
  have h2 : wordP st (w ++ c :: r) = .ok (st, none) := by
    unfold wordP
    apply sbind_none
    apply stok_none
    unfold wordTok
    rw [skipWs_wc hw h]
    simp [hn]
  rw [salt_none h1, salt_none h2]

theorem sfn2_wrong {op d : Char} {f : MPoly → MPoly → Option MPoly} {T : SP Ctx MPoly} {w w₁ r : List Char} (hw : Ws w)
    (hw₁ : Ws w₁) (hd : isWs d = false) (hne : op ≠ d) (st : Ctx) :
    sfn2 op f T st (w ++ '(' :: (w₁ ++ d :: r)) = .ok (st, none) := by
  unfold sfn2
  rw [sbind_some (slit1_ok hw (by decide))]
  exact sbind_none (slit1_fail hw₁ hd hne)

theorem sfn2_nolpar {op c : Char} {f : MPoly → MPoly → Option MPoly} {T : SP Ctx MPoly} {w r : List Char} (hw : Ws w)
    (hc : isWs c = false) (hne : c ≠ '(') (st : Ctx) : sfn2 op f T st (w ++ c :: r) = .ok (st, none) := by
  unfold sfn2
  exact sbind_none (slit1_fail hw hc hne.symm)

/-- No term begins with a closing parenthesis. -/
theorem sterm_rpar (E : SmtEnv K) {w r : List Char} (hw : Ws w) (n : ℕ) (st : Ctx) :
    sterm E (n + 1) st (w ++ ')' :: r) = .ok (st, none) := by
  unfold sterm
  rw [leafs_fail E hw (by decide) (by decide) (by decide) st,
    salt_none (sfn2_nolpar hw (by decide) (by decide) st), salt_none (sfn2_nolpar hw (by decide) (by decide) st),
    salt_none (sfn2_nolpar hw (by decide) (by decide) st), salt_none (sfn2_nolpar hw (by decide) (by decide) st)]
  unfold sfnNeg
  exact sbind_none (slit1_fail hw (by decide) (by decide))

/-- the operations of the parse actions -/
def BinOp.act (E : SmtEnv K) : BinOp → MPoly → MPoly → Option MPoly
  | .add => fun a b => some (a.add b)
  | .mul => fun a b => some (a.mul b)
  | .sub => fun a b => some (a.sub b)
  | .div => E.quot

theorem readTm_bin (E : SmtEnv K) (o : BinOp) (a b : Tm) (c : Ctx) : readTm E.quot c (o.tm a b) =
    match readTm E.quot c a with
    | .error e => .error e
    | .ok r =>
      match readTm E.quot r.2 b with
      | .error e => .error e
      | .ok r' =>
        match o.act E r.1 r'.1 with
        | none => .error .typeError
        | some p => .ok (p, r'.2) := by
  cases o <;> simp only [BinOp.tm, readTm, bind, Except.bind, BinOp.act] <;>
    (cases readTm E.quot c a with
     | error e => rfl
     | ok r =>
       simp only
       cases readTm E.quot r.2 b with
       | error e => rfl
       | ok r' => rfl)

theorem sfn2_ok (E : SmtEnv K) (o : BinOp) {T : SP Ctx MPoly} {w w₁ w₂ w₃ w₄ a b rest : List Char}
    {ta tb : Tm} {st : Ctx} (hw : Ws w) (hw₁ : Ws w₁) (hw₂ : Ws w₂) (hw₃ : Ws w₃) (hw₄ : Ws w₄)
    (hb : TermText E.num b tb) (hs : Ends ta (w₃ ++ b))
    (iha : ∀ (st : Ctx) (w rest : List Char), Ws w → Ends ta rest →
      T st (w ++ (a ++ rest)) = readOut (readTm E.quot st ta) rest)
    (ihb : ∀ (st : Ctx) (w rest : List Char), Ws w → Ends tb rest →
      T st (w ++ (b ++ rest)) = readOut (readTm E.quot st tb) rest) :
    sfn2 o.sym (o.act E) T st (w ++ '(' :: (w₁ ++ o.sym :: (w₂ ++ (a ++ (w₃ ++ (b ++ (w₄ ++ ')' :: rest))))))) =
      readOut (readTm E.quot st (o.tm ta tb)) rest := by
  have e₁ := iha st w₂ (w₃ ++ (b ++ (w₄ ++ ')' :: rest))) hw₂ (ends_append hb hs _)
  unfold sfn2
  rw [sbind_some (slit1_ok hw (by decide)), sbind_some (slit1_ok hw₁ (by cases o <;> decide)), readTm_bin]
  cases ha : readTm E.quot st ta with
  | error e =>
    rw [ha] at e₁
    exact sbind_error e₁
  | ok r =>
    rw [ha] at e₁
    rw [sbind_some e₁]
    have e₂ := ihb r.2 w₃ (w₄ ++ ')' :: rest) hw₃ (ends_rpar hw₄)
    simp only
    cases hb' : readTm E.quot r.2 tb with
    | error e =>
      rw [hb'] at e₂
      exact sbind_error e₂
    | ok r' =>
      rw [hb'] at e₂
      rw [sbind_some e₂, sbind_some (slit1_ok hw₄ (by decide))]
      unfold saction
      simp only
      cases o.act E r.1 r'.1 <;> rfl

/-- A term is read as it is written, for any white space before it and any admissible rest. -/
theorem sterm_text (E : SmtEnv K) {s : List Char} {t : Tm} (h : TermText E.num s t) : ∀ n, s.length ≤ n →
    ∀ (st : Ctx) (w rest : List Char), Ws w → Ends t rest →
      sterm E n st (w ++ (s ++ rest)) = readOut (readTm E.quot st t) rest := by
  induction h with
  | num neg ds es h h' =>
    intro n hn st w rest hw hr
    obtain ⟨n, rfl⟩ : ∃ m, n = m + 1 := ⟨n - 1, by simp at hn; omega⟩
    obtain ⟨c, r, e, hc, _⟩ := digits_cons h
    obtain ⟨f1, _⟩ := num_facts hc
    have hr' : ∀ c r, rest = c :: r → isNum c = false := by
      intro c r hcr
      have := hr c r hcr
      rw [← isNum_iff] at this
      simpa using this
    have hopt : optTilde (w ++ (((if neg then ['~'] else []) ++ (ds ++ '.' :: es)) ++ rest)) =
        (neg, ds ++ '.' :: (es ++ rest)) := by
      cases neg with
      | true =>
        simp only [if_true, List.cons_append, List.nil_append, List.append_assoc]
        unfold optTilde
        rw [skipWs_wc hw (by decide)]
        rfl
      | false =>
        simp only [Bool.false_eq_true, if_false, List.nil_append, List.append_assoc, List.cons_append]
        rw [e, List.cons_append]
        exact optTilde_other hw f1 (by rintro rfl; exact absurd hc (by decide))
    have htok : numTok (w ++ (((if neg then ['~'] else []) ++ (ds ++ '.' :: es)) ++ rest)) = some ((neg, ds, es), rest) := by
      unfold numTok
      rw [hopt]
      simp only
      rw [digits1_app h fun c r hh => by cases hh; decide]
      simp only
      rcases h' with rfl | h'
      · rw [List.nil_append]
        cases hrest : rest with
        | nil => rfl
        | cons c r => rw [digits1_none (hr' c r hrest)]
      · rw [digits1_app h' hr']
    unfold sterm
    apply salt_some
    unfold numP
    rw [sbind_some (stok_some htok)]
    rfl
  | word s h =>
    intro n hn st w rest hw hr
    obtain ⟨h1, h2, h3⟩ := h
    obtain ⟨c, r, rfl⟩ : ∃ c r, s = c :: r := by
      cases s with
      | nil => simp at h1
      | cons c r => exact ⟨c, r, rfl⟩
    obtain ⟨n, rfl⟩ : ∃ m, n = m + 1 := ⟨n - 1, by simp at hn; omega⟩
    have hall : ∀ d ∈ c :: r, isWord d = true := fun d hd => isWord_iff.2 (h2 d hd)
    have hrest : ∀ a b, rest = a :: b → isWord a = false := by
      intro a b hab
      have := hr a b hab
      rw [← isWord_iff] at this
      simpa using this
    have hc := hall c (by simp)
    obtain ⟨f1, f2, f3, f4, f5⟩ := word_facts hc
    have hnum : numTok (w ++ (c :: r ++ rest)) = none := by
      unfold numTok
      rw [List.cons_append, optTilde_other hw f1 f4]
      simp only
      cases hn : isNum c with
      | false => rw [digits1_none hn]
      | true =>
        unfold digits1
        simp only [hn, if_true]
        split
        · next ds x hx =>
          simp only [Option.some.injEq, Prod.mk.injEq] at hx
          obtain ⟨rfl, hx⟩ := hx
          exfalso
          have hsplit : ∃ y, r = r.takeWhile isNum ++ '.' :: y := by
            by_cases hd : ∀ d ∈ r, isNum d = true
            · rw [List.dropWhile_append_of_pos hd] at hx
              cases hre : rest with
              | nil => rw [hre] at hx; simp at hx
              | cons a b =>
                have ha := hrest a b hre
                rw [hre, List.dropWhile_cons] at hx
                split at hx
                · next h' => rw [isWord_of_isNum h'] at ha; cases ha
                · cases hx; exact absurd ha (by decide)
            · push Not at hd
              obtain ⟨d, hd1, hd2⟩ := hd
              have hne : r.dropWhile isNum ≠ [] := by
                intro h'
                have e := List.takeWhile_append_dropWhile (p := isNum) (l := r)
                rw [h', List.append_nil] at e
                rw [← e] at hd1
                exact hd2 (List.all_eq_true.1 List.all_takeWhile d hd1)
              have e := (List.takeWhile_append_dropWhile (p := isNum) (l := r)).symm
              cases hdr : r.dropWhile isNum with
              | nil => exact absurd hdr hne
              | cons a b =>
                rw [List.dropWhile_append, hdr] at hx
                simp only [List.isEmpty_cons, Bool.false_eq_true, if_false, List.cons_append] at hx
                cases hx
                exact ⟨b, by rw [hdr] at e; exact e⟩
          obtain ⟨y, hy⟩ := hsplit
          refine h3 (c :: r.takeWhile isNum) y ⟨by simp, ?_⟩ (by rw [List.cons_append, ← hy])
          intro d hd
          rcases List.mem_cons.1 hd with rfl | hd
          · exact isNum_iff.1 hn
          · exact isNum_iff.1 (List.all_eq_true.1 List.all_takeWhile d hd)
        · rfl
    have htok : wordTok (w ++ (c :: r ++ rest)) = some (c :: r, rest) := by
      unfold wordTok
      rw [List.cons_append, skipWs_wc hw f1]
      simp only [hc, if_true]
      have hall' : ∀ d ∈ r, isWord d = true := fun d hd => hall d (by simp [hd])
      rw [List.takeWhile_append_of_pos hall', List.dropWhile_append_of_pos hall']
      cases hre : rest with
      | nil => simp
      | cons a b => rw [List.takeWhile_cons, List.dropWhile_cons, hrest a b hre]; simp
    unfold sterm
    rw [salt_none (by unfold numP; exact sbind_none (stok_none hnum))]
    apply salt_some
    unfold wordP
    rw [sbind_some (stok_some htok)]
    rfl
  | bin o w₁ w₂ w₃ w₄ a b ta tb h₁ h₂ h₃ h₄ ha hb hs iha ihb =>
    intro n hn st w rest hw hr
    obtain ⟨n, rfl⟩ : ∃ m, n = m + 1 := ⟨n - 1, by simp at hn; omega⟩
    have e : w ++ ('(' :: (w₁ ++ o.sym :: (w₂ ++ (a ++ (w₃ ++ (b ++ (w₄ ++ [')'])))))) ++ rest) =
        w ++ '(' :: (w₁ ++ o.sym :: (w₂ ++ (a ++ (w₃ ++ (b ++ (w₄ ++ ')' :: rest)))))) := by simp
    have hk := sfn2_ok E o (T := sterm E n) (rest := rest) (st := st) hw h₁ h₂ h₃ h₄ hb hs
      (iha n (by simp at hn; omega)) (ihb n (by simp at hn; omega))
    rw [e]
    unfold sterm
    rw [leafs_fail E hw (by decide) (by decide) (by decide) st]
    have wrong : ∀ (op : Char) (f : MPoly → MPoly → Option MPoly), op ≠ o.sym → ∀ st' : Ctx,
        sfn2 op f (sterm E n) st' (w ++ '(' :: (w₁ ++ o.sym :: (w₂ ++ (a ++ (w₃ ++ (b ++ (w₄ ++ ')' :: rest))))))) =
          .ok (st', none) := fun op f hne st' => sfn2_wrong hw h₁ (by cases o <;> decide) hne st'
    cases o with
    | div => exact salt_of hk readOut_ne
    | add => rw [salt_none (wrong '/' _ (by decide) st)]; exact salt_of hk readOut_ne
    | mul =>
      rw [salt_none (wrong '/' _ (by decide) st), salt_none (wrong '+' _ (by decide) st)]
      exact salt_of hk readOut_ne
    | sub =>
      rw [salt_none (wrong '/' _ (by decide) st), salt_none (wrong '+' _ (by decide) st),
        salt_none (wrong '*' _ (by decide) st)]
      exact salt_of hk readOut_ne
  | neg w₁ w₂ w₄ a ta h₁ h₂ h₄ ha iha =>
    intro n hn st w rest hw hr
    obtain ⟨n, rfl⟩ : ∃ m, n = m + 1 := ⟨n - 1, by simp at hn; omega⟩
    have e : w ++ ('(' :: (w₁ ++ '-' :: (w₂ ++ (a ++ (w₄ ++ [')'])))) ++ rest) =
        w ++ '(' :: (w₁ ++ '-' :: (w₂ ++ (a ++ (w₄ ++ ')' :: rest)))) := by simp
    have hlen : a.length ≤ n := by simp at hn; omega
    obtain ⟨m, rfl⟩ : ∃ m, n = m + 1 := by
      obtain ⟨c, r, hac, _⟩ := stext_first ha
      rw [hac] at hlen
      simp at hlen
      exact ⟨n - 1, by omega⟩
    have e₁ := iha (m + 1) hlen st w₂ (w₄ ++ ')' :: rest) h₂ (ends_rpar h₄)
    rw [e, sterm, leafs_fail E hw (by decide) (by decide) (by decide) st,
      salt_none (sfn2_wrong hw h₁ (by decide) (by decide) st), salt_none (sfn2_wrong hw h₁ (by decide) (by decide) st),
      salt_none (sfn2_wrong hw h₁ (by decide) (by decide) st)]
    cases hra : readTm E.quot st ta with
    | error err =>
      rw [hra] at e₁
      have hsub : sfn2 '-' (fun a b => some (a.sub b)) (sterm E (m + 1)) st
          (w ++ '(' :: (w₁ ++ '-' :: (w₂ ++ (a ++ (w₄ ++ ')' :: rest))))) = .error (.act (.loop err)) := by
        unfold sfn2
        rw [sbind_some (slit1_ok hw (by decide)), sbind_some (slit1_ok h₁ (by decide))]
        exact sbind_error e₁
      rw [salt_error hsub]
      simp only [readTm, bind, Except.bind, hra]
      rfl
    | ok r =>
      rw [hra] at e₁
      have hsub : sfn2 '-' (fun a b => some (a.sub b)) (sterm E (m + 1)) st
          (w ++ '(' :: (w₁ ++ '-' :: (w₂ ++ (a ++ (w₄ ++ ')' :: rest))))) = .ok (r.2, none) := by
        unfold sfn2
        rw [sbind_some (slit1_ok hw (by decide)), sbind_some (slit1_ok h₁ (by decide)), sbind_some e₁]
        exact sbind_none (sterm_rpar E h₄ m _)
      have e₂ := iha (m + 1) hlen r.2 w₂ (w₄ ++ ')' :: rest) h₂ (ends_rpar h₄)
      rw [(readTm_again ta st r.2 r.1 hra).2 r.2 (CtxLe.refl _)] at e₂
      rw [salt_none hsub]
      unfold sfnNeg
      rw [sbind_some (slit1_ok hw (by decide)), sbind_some (slit1_ok h₁ (by decide)), sbind_some e₂,
        sbind_some (slit1_ok h₄ (by decide))]
      simp only [readTm, bind, Except.bind, hra]
      rfl

/-! ### Reading formulas -/

theorem relSym_eq (op : Op) : op.toString.toList = relSym op := by cases op <;> decide

theorem kwChar_iff {c : Char} : (isAlpha c || isNum c || c == '_' || c == '$') = true ↔ KwChar c := by
  unfold isAlpha KwChar
  simp only [Bool.or_eq_true, decide_eq_true_eq, isNum_iff, beq_iff_eq]
  tauto

/-- What follows a relation symbol. -/
theorem after_sym {num : Bool → List Char → List Char → ℚ} {w₂ a : List Char} {ta : Tm} (h₂ : Ws w₂)
    (ha : TermText num a ta) (hk : ∀ c r, w₂ ++ a = c :: r → ¬ KwChar c) (r : List Char) :
    ∃ d x, w₂ ++ (a ++ r) = d :: x ∧ (isAlpha d || isNum d || d == '_' || d == '$') = false ∧ d ≠ '=' := by
  obtain ⟨c, r', rfl, _, _, hc⟩ := stext_first ha
  cases w₂ with
  | nil =>
    refine ⟨c, r' ++ r, rfl, ?_, hc⟩
    have := hk c r' rfl
    rw [← kwChar_iff] at this
    simpa using this
  | cons d w =>
    refine ⟨d, _, rfl, ?_, ?_⟩
    · have := hk d (w ++ c :: r') rfl
      rw [← kwChar_iff] at this
      simpa using this
    · rintro rfl
      have := h₂ '=' (by simp)
      revert this
      decide

theorem skw_sym {σ : Type} (k k' : Op) {w r : List Char} (hw : Ws w) (st : σ)
    (hk : (k', k) ≠ (Op.lt, Op.le)) (hk' : (k', k) ≠ (Op.gt, Op.ge))
    (hr : ∃ d x, r = d :: x ∧ (isAlpha d || isNum d || d == '_' || d == '$') = false ∧ d ≠ '=') :
    skw (relSym k') st (w ++ (relSym k ++ r)) = .ok (st, if k' = k then some ((), r) else none) := by
  obtain ⟨d, x, rfl, hd, hd'⟩ := hr
  unfold skw stok
  have hsk : skipWs (w ++ (relSym k ++ d :: x)) = relSym k ++ d :: x := by
    cases k <;> exact skipWs_wc hw (by decide)
  beta_reduce
  rw [hsk]
  by_cases hkk : k' = k
  · subst hkk
    have h1 : (relSym k').isPrefixOf (relSym k' ++ d :: x) = true := by
      rw [List.isPrefixOf_iff_prefix]; exact ⟨_, rfl⟩
    rw [if_pos h1, List.drop_left, if_pos rfl]
    simp [hd]
  · rw [if_neg hkk]
    have hne : ('=' == d) = false := by simpa [beq_eq_false_iff_ne] using hd'.symm
    have h2 : (relSym k').isPrefixOf (relSym k ++ d :: x) = false := by
      cases k <;> cases k' <;> first
        | exact absurd rfl hk
        | exact absurd rfl hk'
        | exact absurd rfl hkk
        | (simp [relSym, List.isPrefixOf, hne])
    rw [h2]
    rfl

theorem srln_fail (E : SmtEnv K) {k k' : Op} {op : String} (hkk : k' ≠ k) (hk : (k', k) ≠ (Op.lt, Op.le))
    (hk' : (k', k) ≠ (Op.gt, Op.ge)) {w w₁ r : List Char} (hw : Ws w) (hw₁ : Ws w₁)
    (hr : ∃ d x, r = d :: x ∧ (isAlpha d || isNum d || d == '_' || d == '$') = false ∧ d ≠ '=') (n : ℕ) (st : Ctx) :
    srln E (relSym k') op n st (w ++ '(' :: (w₁ ++ (relSym k ++ r))) = .ok (st, none) := by
  unfold srln
  rw [sbind_some (slit1_ok hw (by decide))]
  apply sbind_none
  rw [skw_sym k k' hw₁ st hk hk' hr, if_neg hkk]

theorem srln_ok (E : SmtEnv K) {k : Op} {w w₁ w₂ w₃ w₄ a b rest : List Char} {ta tb : Tm} (hw : Ws w) (hw₁ : Ws w₁)
    (hw₂ : Ws w₂) (hw₃ : Ws w₃) (hw₄ : Ws w₄) (ha : TermText E.num a ta) (hb : TermText E.num b tb)
    (hk : ∀ c r, w₂ ++ a = c :: r → ¬ KwChar c) (hs : Ends ta (w₃ ++ b)) (n : ℕ) (hla : a.length ≤ n)
    (hlb : b.length ≤ n) (st : Ctx) :
    srln E (relSym k) k.toString n st
      (w ++ '(' :: (w₁ ++ (relSym k ++ (w₂ ++ (a ++ (w₃ ++ (b ++ (w₄ ++ ')' :: rest)))))))) =
      readOut (readFm E.quot st ⟨k, ta, tb⟩) rest := by
  have e₁ := sterm_text E ha n hla st w₂ (w₃ ++ (b ++ (w₄ ++ ')' :: rest))) hw₂ (ends_append hb hs _)
  have ek := skw_sym k k hw₁ st (by cases k <;> simp) (by cases k <;> simp)
    (after_sym hw₂ ha hk (w₃ ++ (b ++ (w₄ ++ ')' :: rest))))
  rw [if_pos rfl] at ek
  unfold srln readFm
  rw [sbind_some (slit1_ok hw (by decide)), sbind_some ek]
  simp only [bind, Except.bind] at e₁ ⊢
  cases hra : readTm E.quot st ta with
  | error e =>
    rw [hra] at e₁
    rw [e₁]
    rfl
  | ok r =>
    rw [hra] at e₁
    rw [e₁]
    have e₂ := sterm_text E hb n hlb r.2 w₃ (w₄ ++ ')' :: rest) hw₃ (ends_rpar hw₄)
    simp only [readOut]
    cases hrb : readTm E.quot r.2 tb with
    | error e =>
      rw [hrb] at e₂
      rw [e₂]
      rfl
    | ok r' =>
      rw [hrb] at e₂
      rw [e₂]
      simp only [readOut]
      rw [slit1_ok hw₄ (by decide)]
      simp only [saction]
      cases mkAtom r.1 k.toString r'.1 <;> rfl

/-- A formula is read as it is written. -/
theorem sfml_text (E : SmtEnv K) {s : List Char} {f : Fm} (h : RelText E.num s f) (n : ℕ) (hl : s.length ≤ n) (st : Ctx)
    (w rest : List Char) (hw : Ws w) : sfml E n st (w ++ (s ++ rest)) = readOut (readFm E.quot st f) rest := by
  obtain ⟨w₁, w₂, w₃, w₄, a, b, k, ta, tb, h₁, h₂, h₃, h₄, ha, hb, hk, hs⟩ := h
  have e : w ++ ('(' :: (w₁ ++ (relSym k ++ (w₂ ++ (a ++ (w₃ ++ (b ++ (w₄ ++ [')']))))))) ++ rest) =
      w ++ '(' :: (w₁ ++ (relSym k ++ (w₂ ++ (a ++ (w₃ ++ (b ++ (w₄ ++ ')' :: rest))))))) := by simp
  rw [e]
  simp only [List.length_cons, List.length_append] at hl
  have ok := srln_ok E (k := k) (rest := rest) hw h₁ h₂ h₃ h₄ ha hb hk hs n (by omega) (by omega) st
  have fail := fun k' op hkk h h' => srln_fail E (k := k) (k' := k') (op := op) hkk h h' hw h₁
    (after_sym h₂ ha hk (w₃ ++ (b ++ (w₄ ++ ')' :: rest)))) n st
  have hf : sfml E n = (srln E (relSym .le) Op.le.toString n).alt ((srln E (relSym .lt) Op.lt.toString n).alt
    ((srln E (relSym .ne) Op.ne.toString n).alt ((srln E (relSym .eq) Op.eq.toString n).alt
      ((srln E (relSym .ge) Op.ge.toString n).alt (srln E (relSym .gt) Op.gt.toString n))))) := rfl
  rw [hf]
  cases k with
  | le => exact salt_of ok readOut_ne
  | lt => rw [salt_none (fail .le _ (by decide) (by decide) (by decide))]; exact salt_of ok readOut_ne
  | ne =>
    rw [salt_none (fail .le _ (by decide) (by decide) (by decide)),
      salt_none (fail .lt _ (by decide) (by decide) (by decide))]
    exact salt_of ok readOut_ne
  | eq =>
    rw [salt_none (fail .le _ (by decide) (by decide) (by decide)),
      salt_none (fail .lt _ (by decide) (by decide) (by decide)),
      salt_none (fail .ne _ (by decide) (by decide) (by decide))]
    exact salt_of ok readOut_ne
  | ge =>
    rw [salt_none (fail .le _ (by decide) (by decide) (by decide)),
      salt_none (fail .lt _ (by decide) (by decide) (by decide)),
      salt_none (fail .ne _ (by decide) (by decide) (by decide)),
      salt_none (fail .eq _ (by decide) (by decide) (by decide))]
    exact salt_of ok readOut_ne
  | gt =>
    rw [salt_none (fail .le _ (by decide) (by decide) (by decide)),
      salt_none (fail .lt _ (by decide) (by decide) (by decide)),
      salt_none (fail .ne _ (by decide) (by decide) (by decide)),
      salt_none (fail .eq _ (by decide) (by decide) (by decide)),
      salt_none (fail .ge _ (by decide) (by decide) (by decide))]
    exact ok

theorem sfml_rpar (E : SmtEnv K) {n : ℕ} {st : Ctx} {w r : List Char} (hw : Ws w) :
    sfml E n st (w ++ ')' :: r) = .ok (st, none) := by
  have h : ∀ (k : List Char) (op : String), srln E k op n st (w ++ ')' :: r) = .ok (st, none) := by
    intro k op
    unfold srln
    exact sbind_none (slit1_fail hw (by decide) (by decide))
  unfold sfml
  rw [salt_none (h _ _), salt_none (h _ _), salt_none (h _ _), salt_none (h _ _), salt_none (h _ _), h]

/-! ### Reading sequents -/

/-- A state in which the names of a context are changed. -/
def withCtx (st : SmtState) (o : ℕ) (c : Ctx) : SmtState :=
  { st with heap := Function.update st.heap o { st.heap o with ctx := c } }

theorem withCtx_heap (st : SmtState) (o : ℕ) (c : Ctx) : (withCtx st o c).heap o = { st.heap o with ctx := c } := by
  unfold withCtx
  simp

theorem withCtx_with (st : SmtState) (o : ℕ) (c c' : Ctx) : withCtx (withCtx st o c) o c' = withCtx st o c' := by
  unfold withCtx
  simp

theorem withCtx_self (st : SmtState) (o : ℕ) : withCtx st o (st.heap o).ctx = st := by
  unfold withCtx
  simp

theorem smany_gen (E : SmtEnv K) (o : ℕ) {s : List Char} {l : List Fm} (h : RelsText E.num s l)
    {tail : List Char} (htail : ∀ (n : ℕ) (st : Ctx) (w : List Char), Ws w → sfml E n st (w ++ tail) = .ok (st, none)) :
    ∀ (n m : ℕ), s.length ≤ n → s.length < m → ∃ w, Ws w ∧ ∀ st : SmtState,
      smany (zoom o (sfml E n)) m st (s ++ tail) =
        match readFms E.quot (st.heap o).ctx l with
        | .error e => .error (.act (.loop e))
        | .ok (as, c) => .ok (withCtx st o c, some (as, w ++ tail)) := by
  induction h with
  | nil w hw =>
    intro n m _ hm
    obtain ⟨m, rfl⟩ : ∃ k, m = k + 1 := ⟨m - 1, by omega⟩
    refine ⟨w, hw, fun st => ?_⟩
    unfold smany zoom
    rw [htail n _ w hw]
    show Except.ok (withCtx st o (st.heap o).ctx, some ([], w ++ tail)) =
      .ok (withCtx st o (st.heap o).ctx, some ([], w ++ tail))
    rfl
  | cons w s rest' f l hw hs hr ih =>
    intro n m hn hm
    obtain ⟨m, rfl⟩ : ∃ k, m = k + 1 := ⟨m - 1, by omega⟩
    simp only [List.length_append] at hn hm
    have hpos : 0 < s.length := by cases hs; simp
    have e : w ++ (s ++ rest') ++ tail = w ++ (s ++ (rest' ++ tail)) := by simp
    obtain ⟨w', hw', e'⟩ := ih n m (by omega) (by omega)
    refine ⟨w', hw', fun st => ?_⟩
    rw [e]
    unfold smany
    have hz := sfml_text E hs n (by omega) (st.heap o).ctx w (rest' ++ tail) hw
    simp only [readFms, bind, Except.bind, zoom, hz]
    cases hf : readFm E.quot (st.heap o).ctx f with
    | error err => rfl
    | ok r =>
      simp only [readOut]
      have e'' := e' (withCtx st o r.2)
      rw [withCtx_heap] at e''
      have h0 : smany (zoom o (sfml E n)) m { st with heap := Function.update st.heap o { st.heap o with ctx := r.2 } }
        (rest' ++ tail) = smany (zoom o (sfml E n)) m (withCtx st o r.2) (rest' ++ tail) := rfl
      rw [h0, e'']
      simp only
      cases readFms E.quot r.2 l with
      | error err => rfl
      | ok r' =>
        simp only [withCtx_with]
        rfl

theorem smany_text (E : SmtEnv K) (o : ℕ) {s : List Char} {l : List Fm} (h : RelsText E.num s l) :
    ∀ (n m : ℕ), s.length ≤ n → s.length < m → ∀ (rest : List Char), ∃ w, Ws w ∧ ∀ st : SmtState,
      smany (zoom o (sfml E n)) m st (s ++ ')' :: rest) =
        match readFms E.quot (st.heap o).ctx l with
        | .error e => .error (.act (.loop e))
        | .ok (as, c) => .ok (withCtx st o c, some (as, w ++ ')' :: rest)) :=
  fun n m hn hm _ => smany_gen E o h (fun _ _ _ hw => sfml_rpar E hw) n m hn hm

theorem sside_text (E : SmtEnv K) (o : ℕ) {s : List Char} {l : List Fm} (h : RelsText E.num s l)
    {c : Char} {kwd : List Char} (hc : isWs c = false) {w w₁ : List Char} (hw : Ws w) (hw₁ : Ws w₁) (n : ℕ)
    (hn : s.length < n) (st : SmtState) (rest : List Char) :
    sside E o (c :: kwd) n st (w ++ '(' :: (w₁ ++ (c :: kwd ++ (s ++ ')' :: rest)))) =
      match readFms E.quot (st.heap o).ctx l with
      | .error e => .error (.act (.loop e))
      | .ok (as, c) => .ok (withCtx st o c, some (as, rest)) := by
  obtain ⟨w', hw', e'⟩ := smany_text E o h n n (by omega) hn rest
  have e'' := e' st
  unfold sside
  rw [sbind_some (slit1_ok hw (by decide)), sbind_some (slit_ok hw₁ rfl hc)]
  cases hr : readFms E.quot (st.heap o).ctx l with
  | error e =>
    rw [hr] at e''
    exact sbind_error e''
  | ok r =>
    rw [hr] at e''
    rw [sbind_some e'', sbind_some (slit1_ok hw' (by decide))]
    rfl

theorem squoted_text {σ : Type} {w name rest : List Char} (hw : Ws w) (hn : '"' ∉ name) (st : σ) :
    squoted st (w ++ '"' :: (name ++ '"' :: rest)) = .ok (st, some (name, rest)) := by
  unfold squoted
  apply stok_some
  rw [skipWs_wc hw (by decide)]
  have hall : ∀ c ∈ name, (c != '"') = true := by
    intro c hc
    rw [bne_iff_ne]
    rintro rfl
    exact hn hc
  simp only
  rw [List.takeWhile_append_of_pos hall, List.dropWhile_append_of_pos hall, List.takeWhile_cons, List.dropWhile_cons]
  simp

/-- One sequent, by its formulas: they are read with the names of the context, and the decision loop is run. -/
def seqRun (E : SmtEnv K) (o : Obj) (lines : List (List Char)) (runs : ℕ) (q : FileSeq) :
    Except SErr (Obj × List (List Char) × ℕ) :=
  match readFms E.quot o.ctx q.ante with
  | .error e => .error (.act (.loop e))
  | .ok A =>
    match readFms E.quot A.2 q.succ with
    | .error e => .error (.act (.loop e))
    | .ok B =>
      match seqState A.1 B.1 with
      | .error e => .error (.act (.loop e))
      | .ok s =>
        match iCheck (E.core runs) E.int (s.hyps.length + 1) 0 o.interactive s lines with
        | .error e => .error (.act e)
        | .ok r =>
          .ok (⟨B.2, (E.left A.1 B.1).1, (E.left A.1 B.1).2, q.name,
            some (hideAnte s.hyps.length r.2.1.ids, hideSucc A.1.length B.1.length r.2.1.ids), o.interactive⟩,
            r.2.2, runs + 1)

/-- A sequent in a file is read as it is written; then `perform_grf` runs. -/
theorem scmd_gen (E : SmtEnv K) (o own : ℕ) {s : List Char} {q : FileSeq} (h : SequentText E.num s q) (n : ℕ)
    (hl : s.length ≤ n) (st : SmtState) (w rest : List Char) (hw : Ws w) :
    scmd E o own n st (w ++ (s ++ rest)) =
      match readFms E.quot (st.heap o).ctx q.ante with
      | .error e => .error (.act (.loop e))
      | .ok A =>
        match readFms E.quot A.2 q.succ with
        | .error e => .error (.act (.loop e))
        | .ok B => saction (performObj E own q.name)
          ⟨Function.update st.heap o { st.heap o with ctx := B.2, ante := A.1, succ := B.1 }, st.lines, st.runs⟩ rest := by
  obtain ⟨w₁, w₂, w₃, w₄, w₅, w₆, w₇, name, a, b, la, lb, h₁, h₂, h₃, h₄, h₅, h₆, h₇, hn, ha, hb⟩ := h
  simp only [List.length_cons, List.length_append] at hl
  have e : w ++ (('(' :: (w₁ ++ ("sequent".toList ++ (w₂ ++ '"' :: (name ++ '"' :: (w₃ ++ '(' :: (w₄ ++
        ("antecedent".toList ++ (a ++ ')' :: (w₅ ++ '(' :: (w₆ ++ ("succedent".toList ++ (b ++ ')' :: (w₇ ++
        [')'])))))))))))))) ++ rest) =
      w ++ '(' :: (w₁ ++ ("sequent".toList ++ (w₂ ++ '"' :: (name ++ '"' :: (w₃ ++ '(' :: (w₄ ++
        ('a' :: "ntecedent".toList ++ (a ++ ')' :: (w₅ ++ '(' :: (w₆ ++ ("succedent".toList ++ (b ++ ')' :: (w₇ ++
        ')' :: rest))))))))))))) := by
    simp only [List.append_assoc, List.cons_append, List.nil_append]
    rfl
  rw [e]
  unfold scmd
  rw [sbind_some (slit1_ok hw (by decide)), sbind_some (slit_ok (s := "sequent".toList) (c := 's') (s' := "equent".toList) h₁ rfl (by decide)),
    sbind_some (squoted_text h₂ hn st)]
  have e₁ := sside_text E o (c := 'a') (kwd := "ntecedent".toList) ha (by decide) h₃ h₄ n (by omega) st
    (w₅ ++ '(' :: (w₆ ++ ("succedent".toList ++ (b ++ ')' :: (w₇ ++ ')' :: rest)))))
  cases hA : readFms E.quot (st.heap o).ctx la with
  | error e =>
    rw [hA] at e₁
    exact sbind_error e₁
  | ok A =>
    rw [hA] at e₁
    refine (sbind_some e₁).trans ?_
    have e₂ := sside_text E o (c := 's') (kwd := "uccedent".toList) hb (by decide) h₅ h₆ n (by omega)
      ({ withCtx st o A.2 with heap := Function.update (withCtx st o A.2).heap o { (withCtx st o A.2).heap o with ante := A.1 } })
      (w₇ ++ ')' :: rest)
    simp only [Function.update_self, withCtx_heap] at e₂
    refine (sbind_some (a := ()) (r := w₅ ++ '(' :: (w₆ ++ ("succedent".toList ++ (b ++ ')' :: (w₇ ++ ')' :: rest))))) rfl).trans ?_
    simp only
    cases hB : readFms E.quot A.2 lb with
    | error e =>
      rw [hB] at e₂
      refine (sbind_error ?_)
      simp only [withCtx_heap]
      exact e₂
    | ok B =>
      rw [hB] at e₂
      refine (sbind_some (by simp only [withCtx_heap]; exact e₂)).trans ?_
      refine (sbind_some (a := ()) (r := w₇ ++ ')' :: rest) rfl).trans ?_
      rw [sbind_some (slit1_ok h₇ (by decide))]
      simp only [withCtx, Function.update_self, Function.update_idem]

/-- A sequent in a file is processed as it is written. -/
theorem scmd_text (E : SmtEnv K) (o : ℕ) {s : List Char} {q : FileSeq} (h : SequentText E.num s q) (n : ℕ)
    (hl : s.length ≤ n) (st : SmtState) (w rest : List Char) (hw : Ws w) :
    scmd E o o n st (w ++ (s ++ rest)) =
      match seqRun E (st.heap o) st.lines st.runs q with
      | .error e => .error e
      | .ok x => .ok (⟨Function.update st.heap o x.1, x.2.1, x.2.2⟩, some ((), rest)) := by
  rw [scmd_gen E o o h n hl st w rest hw]
  unfold seqRun
  cases readFms E.quot (st.heap o).ctx q.ante with
  | error e => rfl
  | ok A =>
    simp only
    cases readFms E.quot A.2 q.succ with
    | error e => rfl
    | ok B =>
      unfold saction performObj
      simp only [Function.update_self, Function.update_idem]
      cases seqState A.1 B.1 with
      | error e => rfl
      | ok s =>
        simp only
        cases iCheck (E.core st.runs) E.int (s.hyps.length + 1) 0 (st.heap o).interactive s st.lines with
        | error e => rfl
        | ok r => rfl

/-! ### Reading files -/

/-- The sequents of a file, one after the other. An `IndexError` appears as a syntax error. -/
def seqsRun (E : SmtEnv K) : Obj × List (List Char) × ℕ → List FileSeq → Except SErr (Obj × List (List Char) × ℕ)
  | x, [] => .ok x
  | x, q :: l =>
    match seqRun E x.1 x.2.1 x.2.2 q with
    | .error e => .error (if e = .act (.loop .indexError) then .syntax else e)
    | .ok y => seqsRun E y l

/-- the state with a context replaced -/
def place (st : SmtState) (o : ℕ) (x : Obj × List (List Char) × ℕ) : SmtState :=
  ⟨Function.update st.heap o x.1, x.2.1, x.2.2⟩

theorem skipWs_nil {w : List Char} (hw : Ws w) : skipWs w = [] := by
  have := skipWs_ws (r := []) hw
  rw [List.append_nil] at this
  rw [this]
  rfl

theorem scmd_none (E : SmtEnv K) (o own n : ℕ) (st : SmtState) {w : List Char} (hw : Ws w) :
    scmd E o own n st w = .ok (st, none) := by
  unfold scmd
  apply sbind_none
  unfold slit stok
  beta_reduce
  rw [skipWs_nil hw]
  rfl

theorem seqText_head {num : Bool → List Char → List Char → ℚ} {s : List Char} {q : FileSeq}
    (h : SequentText num s q) : ∃ x, s = '(' :: x := by
  cases h
  exact ⟨_, rfl⟩

theorem scmds_text (E : SmtEnv K) (o : ℕ) {text : List Char} {l : List FileSeq} (h : FileText E.num text l) :
    ∀ n k, text.length ≤ n → text.length < k → ∀ st : SmtState,
      match seqsRun E (st.heap o, st.lines, st.runs) l with
      | .ok x => ∃ w, Ws w ∧ scmds E o o n k st text = .ok (place st o x, w)
      | .error e => scmds E o o n k st text = .error e ∨
          (e = .syntax ∧ ∃ st' r, scmds E o o n k st text = .ok (st', r) ∧ skipWs r ≠ []) := by
  induction h with
  | nil w hw =>
    intro n k _ hk st
    obtain ⟨k, rfl⟩ : ∃ m, k = m + 1 := ⟨k - 1, by omega⟩
    refine ⟨w, hw, ?_⟩
    unfold scmds
    rw [scmd_none E o o n st hw]
    unfold place
    simp only [Function.update_eq_self]
  | cons w s rest q l hw hs hr ih =>
    intro n k hn hk st
    obtain ⟨k, rfl⟩ : ∃ m, k = m + 1 := ⟨k - 1, by omega⟩
    obtain ⟨x, hx⟩ := seqText_head hs
    have hpos : 0 < s.length := by rw [hx]; simp
    simp only [List.length_append] at hn hk
    have e := scmd_text E o hs n (by omega) st w rest hw
    unfold seqsRun
    simp only
    cases hq : seqRun E (st.heap o) st.lines st.runs q with
    | error err =>
      rw [hq] at e
      simp only at e ⊢
      by_cases hi : err = .act (.loop .indexError)
      · right
        refine ⟨if_pos hi, st, w ++ (s ++ rest), ?_, ?_⟩
        · unfold scmds
          rw [e]
          simp only [if_pos hi]
        · rw [hx, List.cons_append, skipWs_wc hw (by decide)]
          simp
      · left
        unfold scmds
        rw [e]
        simp only [if_neg hi]
    | ok y =>
      rw [hq] at e
      simp only at e ⊢
      have hk := ih n k (by omega) (by omega) (place st o y)
      have h0 : ((place st o y).heap o, (place st o y).lines, (place st o y).runs) = y := by
        unfold place
        simp
      rw [h0] at hk
      have hu : scmds E o o n (k + 1) st (w ++ (s ++ rest)) = scmds E o o n k (place st o y) rest := by
        rw [scmds, e]
        rfl
      rw [hu]
      cases hl : seqsRun E y l with
      | error err => rw [hl] at hk; exact hk
      | ok z =>
        rw [hl] at hk
        simp only at hk ⊢
        have : place (place st o y) o z = place st o z := by
          unfold place
          simp
        rw [this] at hk
        exact hk

theorem parseCmds_text (E : SmtEnv K) (o : ℕ) {text : List Char} {l : List FileSeq} (h : FileText E.num text l)
    (st : SmtState) : parseCmds E o o text st =
      match seqsRun E (st.heap o, st.lines, st.runs) l with
      | .error e => .error e
      | .ok x => .ok (place st o x) := by
  have hm := scmds_text E o h (text.length + 1) (text.length + 1) (by omega) (by omega) st
  unfold parseCmds
  cases hs : seqsRun E (st.heap o, st.lines, st.runs) l with
  | error e =>
    rw [hs] at hm
    rcases hm with hm | ⟨rfl, st', r, hm, hr⟩
    · rw [hm]
    · rw [hm]
      simp only [if_neg hr]
  | ok x =>
    rw [hs] at hm
    obtain ⟨w, hw, hm⟩ := hm
    rw [hm]
    simp only [if_pos (skipWs_nil hw)]

/-- **C74** (reading): a file that consists of sequents with any white space around and inside them is processed
according to the formulas that are written in it: the outcome of `grf_on_file` is that of reading and deciding the
sequents one after the other in one context, and the result is that of the last one. -/
theorem C74_reading (E : SmtEnv K) (interactive out : Bool) (lines : List (List Char)) (text : List Char)
    (l : List FileSeq) (h : FileText E.num text l) :
    grfOnFile E interactive out lines text =
      match seqsRun E (Obj.new interactive, lines, 0) l with
      | .error e => .error e
      | .ok x =>
        match x.1.result with
        | none => .error .noResult
        | some (a, s) => .ok ⟨(a.length, s.length), if out then some (resultText x.1.name a s) else none⟩ := by
  unfold grfOnFile SmtReader.process SmtReader.new
  simp only
  rw [parseCmds_text E 0 h]
  simp only
  cases seqsRun E (Obj.new interactive, lines, 0) l with
  | error e => rfl
  | ok x =>
    simp only [place, Function.update_self]
    rfl

/-! ### What is not a file is not read -/

theorem saction_inv {σ α : Type} {f : σ → Except SErr (α × σ)} {st st' : σ} {i : List Char} {x : α × List Char}
    (h : saction f st i = .ok (st', some x)) : x.2 = i ∧ f st = .ok (x.1, st') := by
  unfold saction at h
  split at h
  · cases h
  · next h' => cases h; exact ⟨rfl, h'⟩

theorem slit_inv {σ : Type} {s : List Char} {st st' : σ} {i : List Char} {x : Unit × List Char}
    (h : slit s st i = .ok (st', some x)) : st' = st ∧ ∃ w, Ws w ∧ i = w ++ (s ++ x.2) := by
  unfold slit stok at h
  simp only [Except.ok.injEq, Prod.mk.injEq] at h
  obtain ⟨rfl, h⟩ := h
  obtain ⟨w, hw, e⟩ := ws_split i
  split at h
  · next hp =>
    cases h
    obtain ⟨t, ht⟩ := List.isPrefixOf_iff_prefix.1 hp
    refine ⟨rfl, w, hw, ?_⟩
    conv_lhs => rw [e]
    rw [← ht, List.drop_left]
  · cases h

theorem skw_inv {σ : Type} {s : List Char} {st st' : σ} {i : List Char} {x : Unit × List Char}
    (h : skw s st i = .ok (st', some x)) : st' = st ∧ ∃ w, Ws w ∧ i = w ++ (s ++ x.2) ∧
      ∀ c r, x.2 = c :: r → ¬ KwChar c := by
  unfold skw stok at h
  simp only [Except.ok.injEq, Prod.mk.injEq] at h
  obtain ⟨rfl, h⟩ := h
  obtain ⟨w, hw, e⟩ := ws_split i
  split at h
  · next hp =>
    obtain ⟨t, ht⟩ := List.isPrefixOf_iff_prefix.1 hp
    rw [← ht, List.drop_left] at h
    refine ⟨rfl, w, hw, ?_⟩
    have hx : x.2 = t ∧ ∀ c r, t = c :: r → ¬ KwChar c := by
      split at h
      · cases h
        exact ⟨rfl, fun c r hc => by cases hc⟩
      · next c r =>
        split at h
        · cases h
        · next hc =>
          cases h
          refine ⟨rfl, fun c' r' hc' => ?_⟩
          cases hc'
          rw [← kwChar_iff]
          exact hc
    obtain ⟨hx1, hx2⟩ := hx
    rw [hx1]
    refine ⟨?_, hx2⟩
    conv_lhs => rw [e]
    rw [← ht]
  · cases h

theorem digits1_inv {i a r : List Char} (h : digits1 i = some (a, r)) :
    i = a ++ r ∧ Digits a ∧ ∀ c x, r = c :: x → isNum c = false := by
  unfold digits1 at h
  split at h
  · cases h
  · next c x =>
    split at h
    · next hc =>
      cases h
      refine ⟨by rw [List.cons_append, List.takeWhile_append_dropWhile], ⟨by simp, ?_⟩, ?_⟩
      · intro d hd
        rcases List.mem_cons.1 hd with rfl | hd
        · exact isNum_iff.1 hc
        · exact isNum_iff.1 (List.all_eq_true.1 List.all_takeWhile d hd)
      · intro d y hd
        have := List.head?_dropWhile_not isNum x
        rw [hd] at this
        simpa using this
    · cases h

theorem optTilde_inv (i : List Char) : ∃ w, Ws w ∧ i = w ++ ((if (optTilde i).1 then ['~'] else []) ++ (optTilde i).2) := by
  obtain ⟨w, hw, e⟩ := ws_split i
  refine ⟨w, hw, ?_⟩
  conv_lhs => rw [e]
  unfold optTilde
  split
  · next h => rw [h]; simp
  · simp

theorem numTok_inv {i r : List Char} {x : Bool × List Char × List Char} (h : numTok i = some (x, r)) :
    ∃ w, Ws w ∧ i = w ++ (((if x.1 then ['~'] else []) ++ (x.2.1 ++ '.' :: x.2.2)) ++ r) ∧ Digits x.2.1 ∧
      (x.2.2 = [] ∨ Digits x.2.2) ∧ ∀ c y, r = c :: y → isNum c = false := by
  obtain ⟨w, hw, e⟩ := optTilde_inv i
  unfold numTok at h
  split at h
  · next a r' hd =>
    obtain ⟨h1, h2, _⟩ := digits1_inv hd
    rw [h1] at e
    split at h
    · next b r'' hb =>
      cases h
      obtain ⟨h4, h5, h6⟩ := digits1_inv hb
      refine ⟨w, hw, ?_, h2, Or.inr h5, h6⟩
      refine e.trans ?_
      rw [h4]
      simp
    · next hb =>
      cases h
      refine ⟨w, hw, ?_, h2, Or.inl rfl, ?_⟩
      · refine e.trans ?_
        simp
      · rintro c y rfl
        unfold digits1 at hb
        simp only at hb
        split at hb
        · cases hb
        · next hc => simpa using hc
  · cases h

theorem wordTok_inv {i r s : List Char} (h : wordTok i = some (s, r)) :
    ∃ w, Ws w ∧ i = w ++ (s ++ r) ∧ s ≠ [] ∧ (∀ c ∈ s, WordChar c) ∧ ∀ c y, r = c :: y → ¬ WordChar c := by
  obtain ⟨w, hw, e⟩ := ws_split i
  unfold wordTok at h
  split at h
  · cases h
  · next c x hx =>
    split at h
    · next hc =>
      cases h
      refine ⟨w, hw, ?_, by simp, ?_, ?_⟩
      · rw [List.cons_append, List.takeWhile_append_dropWhile, ← hx]
        exact e
      · intro d hd
        rcases List.mem_cons.1 hd with rfl | hd
        · exact isWord_iff.1 hc
        · exact isWord_iff.1 (List.all_eq_true.1 List.all_takeWhile d hd)
      · intro d y hd
        have := List.head?_dropWhile_not isWord x
        rw [hd] at this
        rw [← isWord_iff]
        simpa using this
    · cases h

theorem numTok_digits {w ds r : List Char} (hw : Ws w) (hd : Digits ds) : numTok (w ++ (ds ++ '.' :: r)) ≠ none := by
  obtain ⟨c, x, e, hc, _⟩ := digits_cons hd
  obtain ⟨f1, _⟩ := num_facts hc
  have : optTilde (w ++ (ds ++ '.' :: r)) = (false, ds ++ '.' :: r) := by
    rw [e, List.cons_append]
    exact optTilde_other hw f1 (by rintro rfl; exact absurd hc (by decide))
  unfold numTok
  rw [this]
  simp only
  rw [digits1_app hd fun c r hh => by cases hh; decide]
  simp only
  cases digits1 r <;> simp

theorem ends_of_append {num : Bool → List Char → List Char → ℚ} {t tb : Tm} {w b x : List Char} (hb : TermText num b tb)
    (h : Ends t (w ++ (b ++ x))) : Ends t (w ++ b) := by
  obtain ⟨c, r, rfl, _⟩ := stext_first hb
  have e : ∃ d y, (w ++ c :: r) = d :: y ∧ w ++ (c :: r ++ x) = d :: (y ++ x) := by
    cases w with
    | nil => exact ⟨c, r, rfl, rfl⟩
    | cons d w => exact ⟨d, w ++ c :: r, rfl, by simp⟩
  obtain ⟨d, y, e1, e2⟩ := e
  rw [e1]
  rw [e2] at h
  unfold Ends at h ⊢
  split
  · intro c' r' hr
    cases hr
    exact h d _ rfl
  · intro c' r' hr
    cases hr
    exact h d _ rfl
  · trivial

/-- What a successful reading of a term says about the text. -/
def IsTerm (num : Bool → List Char → List Char → ℚ) (i r : List Char) : Prop :=
  ∃ w s t, Ws w ∧ i = w ++ (s ++ r) ∧ TermText num s t ∧ Ends t r

theorem sfn2_inv {num : Bool → List Char → List Char → ℚ} (o : BinOp) {f : MPoly → MPoly → Option MPoly}
    {T : SP Ctx MPoly} (hT : ∀ st st' i p r, T st i = .ok (st', some (p, r)) → IsTerm num i r)
    {st st' : Ctx} {i : List Char} {x : MPoly × List Char} (h : sfn2 o.sym f T st i = .ok (st', some x)) :
    IsTerm num i x.2 := by
  unfold sfn2 at h
  obtain ⟨_, _, _, h0, h⟩ := sbind_ok h
  obtain ⟨_, _, _, h1, h⟩ := sbind_ok h
  obtain ⟨_, _, _, h2, h⟩ := sbind_ok h
  obtain ⟨_, _, _, h3, h⟩ := sbind_ok h
  obtain ⟨_, _, _, h4, h⟩ := sbind_ok h
  obtain ⟨_, w, hw, e0⟩ := slit_inv h0
  obtain ⟨_, w₁, hw₁, e1⟩ := slit_inv h1
  obtain ⟨w₂, a, ta, hw₂, e2, ha, ea⟩ := hT _ _ _ _ _ h2
  obtain ⟨w₃, b, tb, hw₃, e3, hb, eb⟩ := hT _ _ _ _ _ h3
  obtain ⟨_, w₄, hw₄, e4⟩ := slit_inv h4
  obtain ⟨e5, _⟩ := saction_inv h
  simp only at e0 e1 e4
  rw [e3] at ea
  refine ⟨w, _, _, hw, ?_, TermText.bin o w₁ w₂ w₃ w₄ a b ta tb hw₁ hw₂ hw₃ hw₄ ha hb (ends_of_append hb ea), ?_⟩
  · rw [e0, e1, e2, e3, e4, e5]
    simp
  · cases o <;> trivial

theorem sterm_inv (E : SmtEnv K) : ∀ (n : ℕ) (st st' : Ctx) (i : List Char) (p : MPoly) (r : List Char),
    sterm E n st i = .ok (st', some (p, r)) → IsTerm E.num i r := by
  intro n
  induction n with
  | zero => intro st st' i p r h; cases h
  | succ n ih =>
    intro st st' i p r h
    unfold sterm at h
    rcases salt_ok h with h | ⟨s1, hn, h⟩
    · unfold numP at h
      obtain ⟨_, x, r', h1, h2⟩ := sbind_ok h
      unfold stok at h1
      simp only [Except.ok.injEq, Prod.mk.injEq] at h1
      obtain ⟨w, hw, e, hd, hd', hr⟩ := numTok_inv h1.2
      cases h2
      refine ⟨w, _, _, hw, e, TermText.num x.1 x.2.1 x.2.2 hd hd', ?_⟩
      intro c y hc
      rw [← isNum_iff, hr c y hc]
      simp
    rcases salt_ok h with h | ⟨s2, _, h⟩
    · have hnone : numTok i = none := by
        unfold numP at hn
        cases hx : numTok i with
        | none => rfl
        | some x =>
          rw [sbind_some (stok_some hx)] at hn
          cases hn
      unfold wordP at h
      obtain ⟨_, x, r', h1, h2⟩ := sbind_ok h
      unfold stok at h1
      simp only [Except.ok.injEq, Prod.mk.injEq] at h1
      obtain ⟨w, hw, e, hne, hall, hr⟩ := wordTok_inv h1.2
      obtain ⟨hr', _⟩ := saction_inv h2
      simp only at hr'
      subst hr'
      refine ⟨w, _, _, hw, e, TermText.word x ⟨hne, hall, ?_⟩, hr⟩
      rintro ds y hd rfl
      rw [e, List.append_assoc, List.cons_append] at hnone
      exact numTok_digits hw hd hnone
    rcases salt_ok h with h | ⟨s3, _, h⟩
    · exact sfn2_inv (num := E.num) .div ih h
    rcases salt_ok h with h | ⟨s4, _, h⟩
    · exact sfn2_inv (num := E.num) .add ih h
    rcases salt_ok h with h | ⟨s5, _, h⟩
    · exact sfn2_inv (num := E.num) .mul ih h
    rcases salt_ok h with h | ⟨s6, _, h⟩
    · exact sfn2_inv (num := E.num) .sub ih h
    unfold sfnNeg at h
    obtain ⟨_, _, _, h0, h⟩ := sbind_ok h
    obtain ⟨_, _, _, h1, h⟩ := sbind_ok h
    obtain ⟨_, _, _, h2, h⟩ := sbind_ok h
    obtain ⟨_, _, _, h4, h⟩ := sbind_ok h
    obtain ⟨_, w, hw, e0⟩ := slit_inv h0
    obtain ⟨_, w₁, hw₁, e1⟩ := slit_inv h1
    obtain ⟨w₂, a, ta, hw₂, e2, ha, ea⟩ := ih _ _ _ _ _ h2
    obtain ⟨_, w₄, hw₄, e4⟩ := slit_inv h4
    cases h
    simp only at e0 e1 e4
    refine ⟨w, _, _, hw, ?_, TermText.neg w₁ w₂ w₄ a ta hw₁ hw₂ hw₄ ha, trivial⟩
    rw [e0, e1, e2, e4]
    simp

theorem srln_inv (E : SmtEnv K) (k : Op) {op : String} {n : ℕ} {st st' : Ctx} {i : List Char} {x : Atom × List Char}
    (h : srln E (relSym k) op n st i = .ok (st', some x)) :
    ∃ w s f, Ws w ∧ i = w ++ (s ++ x.2) ∧ RelText E.num s f := by
  unfold srln at h
  obtain ⟨_, _, _, h0, h⟩ := sbind_ok h
  obtain ⟨_, _, _, h1, h⟩ := sbind_ok h
  obtain ⟨_, _, _, h2, h⟩ := sbind_ok h
  obtain ⟨_, _, _, h3, h⟩ := sbind_ok h
  obtain ⟨_, _, _, h4, h⟩ := sbind_ok h
  obtain ⟨_, w, hw, e0⟩ := slit_inv h0
  obtain ⟨_, w₁, hw₁, e1, hk⟩ := skw_inv h1
  obtain ⟨w₂, a, ta, hw₂, e2, ha, ea⟩ := sterm_inv E _ _ _ _ _ _ h2
  obtain ⟨w₃, b, tb, hw₃, e3, hb, eb⟩ := sterm_inv E _ _ _ _ _ _ h3
  obtain ⟨_, w₄, hw₄, e4⟩ := slit_inv h4
  obtain ⟨e5, _⟩ := saction_inv h
  simp only at e0 e1 e4 hk
  rw [e3] at ea
  refine ⟨w, _, _, hw, ?_, RelText.mk w₁ w₂ w₃ w₄ a b k ta tb hw₁ hw₂ hw₃ hw₄ ha hb ?_ (ends_of_append hb ea)⟩
  · rw [e0, e1, e2, e3, e4, e5]
    simp
  · intro c r hc
    apply hk c
    rw [e2, ← List.append_assoc, hc]
    rfl

theorem sfml_inv (E : SmtEnv K) {n : ℕ} {st st' : Ctx} {i : List Char} {x : Atom × List Char}
    (h : sfml E n st i = .ok (st', some x)) : ∃ w s f, Ws w ∧ i = w ++ (s ++ x.2) ∧ RelText E.num s f := by
  unfold sfml at h
  rcases salt_ok h with h | ⟨s1, _, h⟩
  · exact srln_inv E .le h
  rcases salt_ok h with h | ⟨s1, _, h⟩
  · exact srln_inv E .lt h
  rcases salt_ok h with h | ⟨s1, _, h⟩
  · exact srln_inv E .ne h
  rcases salt_ok h with h | ⟨s1, _, h⟩
  · exact srln_inv E .eq h
  rcases salt_ok h with h | ⟨s1, _, h⟩
  · exact srln_inv E .ge h
  · exact srln_inv E .gt h

theorem zoom_inv {α : Type} {o : ℕ} {p : SP Ctx α} {st st' : SmtState} {i : List Char} {x : α × List Char}
    (h : zoom o p st i = .ok (st', some x)) : ∃ c, p (st.heap o).ctx i = .ok (c, some x) := by
  unfold zoom at h
  split at h
  · cases h
  · next c y h' => cases h; exact ⟨c, h'⟩

theorem smany_inv (E : SmtEnv K) (o n : ℕ) : ∀ (m : ℕ) (st st' : SmtState) (i : List Char) (l : List Atom) (r : List Char),
    smany (zoom o (sfml E n)) m st i = .ok (st', some (l, r)) → ∀ w r', Ws w → r = w ++ r' →
      ∃ s l', i = s ++ r' ∧ RelsText E.num s l' := by
  intro m
  induction m with
  | zero => intro st st' i l r h; cases h
  | succ m ih =>
    intro st st' i l r h w r' hw hr
    unfold smany at h
    split at h
    · cases h
    · cases h
      exact ⟨w, [], hr, RelsText.nil w hw⟩
    · next a ra h0 =>
      obtain ⟨c, h0⟩ := zoom_inv h0
      obtain ⟨w₀, s, f, hw₀, e, hf⟩ := sfml_inv E h0
      obtain ⟨_, l1, r1, h1, h2⟩ := sbind_ok h
      cases h2
      obtain ⟨s', l', e', hl⟩ := ih _ _ _ _ _ h1 w r' hw hr
      refine ⟨_, _, ?_, RelsText.cons w₀ s s' f l' hw₀ hf hl⟩
      rw [e]
      simp only
      rw [e']
      simp

theorem sside_inv (E : SmtEnv K) (o n : ℕ) {kwd : List Char} {st st' : SmtState} {i : List Char}
    {x : List Atom × List Char} (h : sside E o kwd n st i = .ok (st', some x)) :
    ∃ w w₁ s l, Ws w ∧ Ws w₁ ∧ RelsText E.num s l ∧ i = w ++ '(' :: (w₁ ++ (kwd ++ (s ++ ')' :: x.2))) := by
  unfold sside at h
  obtain ⟨_, _, _, h0, h⟩ := sbind_ok h
  obtain ⟨_, _, _, h1, h⟩ := sbind_ok h
  obtain ⟨_, _, _, h2, h⟩ := sbind_ok h
  obtain ⟨_, _, _, h4, h⟩ := sbind_ok h
  obtain ⟨_, w, hw, e0⟩ := slit_inv h0
  obtain ⟨_, w₁, hw₁, e1⟩ := slit_inv h1
  obtain ⟨_, w₄, hw₄, e4⟩ := slit_inv h4
  obtain ⟨s, l, e2, hl⟩ := smany_inv E o n _ _ _ _ _ _ h2 w₄ _ hw₄ e4
  cases h
  simp only at e0 e1 e4 e2
  refine ⟨w, w₁, s, l, hw, hw₁, hl, ?_⟩
  rw [e0, e1, e2]
  simp

theorem squoted_inv {σ : Type} {st st' : σ} {i : List Char} {x : List Char × List Char}
    (h : squoted st i = .ok (st', some x)) : ∃ w, Ws w ∧ '"' ∉ x.1 ∧ i = w ++ '"' :: (x.1 ++ '"' :: x.2) := by
  unfold squoted stok at h
  simp only [Except.ok.injEq, Prod.mk.injEq] at h
  obtain ⟨_, h⟩ := h
  obtain ⟨w, hw, e⟩ := ws_split i
  split at h
  · next r hr =>
    split at h
    · cases h
    · next c r' hd =>
      cases h
      refine ⟨w, hw, ?_, ?_⟩
      · intro hm
        have := List.all_eq_true.1 (List.all_takeWhile (p := fun c => c != '"')) _ hm
        simp at this
      · have hc : c = '"' := by
          have := List.head?_dropWhile_not (fun c => c != '"') r
          rw [hd] at this
          simpa using this
        subst hc
        conv_lhs => rw [e, hr]
        congr 2
        rw [← hd]
        exact (List.takeWhile_append_dropWhile ..).symm
  · cases h

theorem scmd_inv (E : SmtEnv K) (o own n : ℕ) {st st' : SmtState} {i : List Char} {x : Unit × List Char}
    (h : scmd E o own n st i = .ok (st', some x)) :
    ∃ w s q, Ws w ∧ i = w ++ (s ++ x.2) ∧ SequentText E.num s q := by
  unfold scmd at h
  obtain ⟨_, _, _, h0, h⟩ := sbind_ok h
  obtain ⟨_, _, _, h1, h⟩ := sbind_ok h
  obtain ⟨_, _, _, h2, h⟩ := sbind_ok h
  obtain ⟨_, _, _, h3, h⟩ := sbind_ok h
  obtain ⟨_, _, _, h4, h⟩ := sbind_ok h
  obtain ⟨_, _, _, h5, h⟩ := sbind_ok h
  obtain ⟨_, _, _, h6, h⟩ := sbind_ok h
  obtain ⟨_, _, _, h7, h⟩ := sbind_ok h
  obtain ⟨_, w, hw, e0⟩ := slit_inv h0
  obtain ⟨_, w₁, hw₁, e1⟩ := slit_inv h1
  obtain ⟨w₂, hw₂, hn, e2⟩ := squoted_inv h2
  obtain ⟨w₃, w₄, a, la, hw₃, hw₄, ha, e3⟩ := sside_inv E _ _ h3
  obtain ⟨e4, _⟩ := saction_inv h4
  obtain ⟨w₅, w₆, b, lb, hw₅, hw₆, hb, e5⟩ := sside_inv E _ _ h5
  obtain ⟨e6, _⟩ := saction_inv h6
  obtain ⟨_, w₇, hw₇, e7⟩ := slit_inv h7
  obtain ⟨e8, _⟩ := saction_inv h
  simp only at e0 e1 e2 e3 e4 e5 e6 e7 hn
  refine ⟨w, _, _, hw, ?_, SequentText.mk w₁ w₂ w₃ w₄ w₅ w₆ w₇ _ a b la lb hw₁ hw₂ hw₃ hw₄ hw₅ hw₆ hw₇ hn ha hb⟩
  rw [e0, e1, e2, e3, ← e4, e5, ← e6, e7, e8]
  simp

theorem ws_of_skipWs {i : List Char} (h : skipWs i = []) : Ws i := by
  obtain ⟨w, hw, e⟩ := ws_split i
  rw [h, List.append_nil] at e
  rw [e]
  exact hw

theorem scmds_inv (E : SmtEnv K) (o own n : ℕ) : ∀ (k : ℕ) (st st' : SmtState) (i r : List Char),
    scmds E o own n k st i = .ok (st', r) → skipWs r = [] → ∃ l, FileText E.num i l := by
  intro k
  induction k with
  | zero => intro st st' i r h; cases h
  | succ k ih =>
    intro st st' i r h hr
    unfold scmds at h
    split at h
    · split at h
      · cases h; exact ⟨[], FileText.nil _ (ws_of_skipWs hr)⟩
      · cases h
    · cases h; exact ⟨[], FileText.nil _ (ws_of_skipWs hr)⟩
    · next u r' h0 =>
      obtain ⟨w, s, q, hw, e, hq⟩ := scmd_inv E o own n h0
      obtain ⟨l, hl⟩ := ih _ _ _ _ h hr
      rw [e]
      exact ⟨_, FileText.cons w s _ q l hw hq hl⟩

/-- **C74** (exactness): if `grf_on_file` returns, the text of the file consists of sequents, at least one. -/
theorem C74_exact (E : SmtEnv K) (interactive out : Bool) (lines : List (List Char)) (text : List Char) (o : SmtOut)
    (h : grfOnFile E interactive out lines text = .ok o) : ∃ l, l ≠ [] ∧ FileText E.num text l := by
  have hex : ∃ l, FileText E.num text l := by
    unfold grfOnFile SmtReader.process at h
    simp only at h
    split at h
    · cases h
    · next o' st hp =>
      split at hp
      · cases hp
      · next st' hp' =>
        unfold parseCmds at hp'
        split at hp'
        · cases hp'
        · next st'' r hs =>
          split at hp'
          · next hr => exact scmds_inv E _ _ _ _ _ _ _ _ hs hr
          · cases hp'
  obtain ⟨l, hl⟩ := hex
  refine ⟨l, ?_, hl⟩
  rintro rfl
  rw [C74_reading E interactive out lines text [] hl] at h
  cases h

end

end Verif.Grf
