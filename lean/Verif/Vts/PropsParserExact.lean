import Verif.Vts.PropsParserErr

/-!
# C63, C78: the sequents that are returned are written in the file, and none that is written well is passed over
-/

namespace Verif.Vts

/-! ### What is accepted -/

/-- The operations with two arguments. -/
inductive BinOp
  | add | mul | sub | div

/-- their symbols -/
def BinOp.sym : BinOp → Char
  | .add => '+'
  | .mul => '*'
  | .sub => '-'
  | .div => '/'

/-- their terms -/
def BinOp.tm : BinOp → Tm → Tm → Tm
  | .add => .add
  | .mul => .mul
  | .sub => .sub
  | .div => .div

/-- The writing of terms, with less space than in `TermText` or more: a whole number may have white space after its sign
and before its dot, and terms need not be separated. -/
inductive TermWritten : List Char → Tm → Prop
  | int (neg dot : Bool) (w v ds : List Char) (hw : Ws w) (hv : Ws v) (h : Digits ds) :
      TermWritten ((if neg then '-' :: w else []) ++ (ds ++ if dot then v ++ ['.'] else []))
        (.int (if neg then -(decimal ds : ℤ) else decimal ds))
  | dec (neg : Bool) (ds es : List Char) (h : Digits ds) (h' : Digits es) :
      TermWritten ((if neg then ['-'] else []) ++ (ds ++ '.' :: es))
        (.dec (if neg then -(decimal ds + decimal es / 10 ^ es.length : ℚ) else decimal ds + decimal es / 10 ^ es.length))
  | var (s : List Char) (h : Name s) : TermWritten s (.var s)
  | bin (o : BinOp) (w₁ w₂ w₃ w₄ a b : List Char) (ta tb : Tm) (h₁ : Ws w₁) (h₂ : Ws w₂) (h₃ : Ws w₃) (h₄ : Ws w₄)
      (ha : TermWritten a ta) (hb : TermWritten b tb) :
      TermWritten ('(' :: (w₁ ++ o.sym :: (w₂ ++ (a ++ (w₃ ++ (b ++ (w₄ ++ [')']))))))) (o.tm ta tb)
  | neg (w₁ w₂ w₄ a : List Char) (ta : Tm) (h₁ : Ws w₁) (h₂ : Ws w₂) (h₄ : Ws w₄) (ha : TermWritten a ta) :
      TermWritten ('(' :: (w₁ ++ '-' :: (w₂ ++ (a ++ (w₄ ++ [')']))))) (.neg ta)

/-- Letters, digits, `_` and `$`. -/
def WordChar (c : Char) : Prop := Letter c ∨ ('0'.toNat ≤ c.toNat ∧ c.toNat ≤ '9'.toNat) ∨ c = '$'

/-- The writing of relations: the symbol is not followed by a letter, a digit, `_` or `$`. -/
inductive RelWritten : List Char → Rel Tm → Prop
  | mk (w₁ w₂ w₃ w₄ a b : List Char) (k : RelKind) (ta tb : Tm) (h₁ : Ws w₁) (h₂ : Ws w₂) (h₃ : Ws w₃) (h₄ : Ws w₄)
      (ha : TermWritten a ta) (hb : TermWritten b tb) (hk : ∀ c r, w₂ ++ a = c :: r → ¬ WordChar c) :
      RelWritten ('(' :: (w₁ ++ (relSymbol k ++ (w₂ ++ (a ++ (w₃ ++ (b ++ (w₄ ++ [')'])))))))) ⟨k, ta, tb⟩

/-- The writing of a list of relations, followed by white space. -/
inductive RelsWritten : List Char → List (Rel Tm) → Prop
  | nil (w : List Char) (h : Ws w) : RelsWritten w []
  | cons (w s rest : List Char) (r : Rel Tm) (l : List (Rel Tm)) (h : Ws w) (hs : RelWritten s r)
      (hr : RelsWritten rest l) : RelsWritten (w ++ (s ++ rest)) (r :: l)

/-- The writing of a sequent. -/
inductive SequentWritten : List Char → Sequent → Prop
  | mk (w₁ w₂ w₃ w₄ w₅ w₆ w₇ name a s : List Char) (la ls : List (Rel Tm)) (h₁ : Ws w₁) (h₂ : Ws w₂) (h₃ : Ws w₃)
      (h₄ : Ws w₄) (h₅ : Ws w₅) (h₆ : Ws w₆) (h₇ : Ws w₇) (hn : '"' ∉ name) (ha : RelsWritten a la)
      (hs : RelsWritten s ls) :
      SequentWritten ('(' :: (w₁ ++ ("sequent".toList ++ (w₂ ++ ('"' :: (name ++ ('"' :: (w₃ ++ ('(' :: (w₄ ++
        ("antecedent".toList ++ (a ++ (')' :: (w₅ ++ ('(' :: (w₆ ++ ("succedent".toList ++ (s ++ (')' :: (w₇ ++
        [')'])))))))))))))))))))) ⟨name, la, ls⟩

/-- The sequents are written one after the other in the text, with any text before, between and after them. -/
inductive WrittenIn : List Char → List Sequent → Prop
  | nil (g : List Char) : WrittenIn g []
  | cons (g s rest : List Char) (q : Sequent) (l : List Sequent) (hs : SequentWritten s q) (hr : WrittenIn rest l) :
      WrittenIn (g ++ (s ++ rest)) (q :: l)

/-- No sequent text starts in `g`, when `g` is followed by `rest`. -/
def NoneStarts (g rest : List Char) : Prop :=
  ∀ a b s q r, g = a ++ b → b ≠ [] → SequentText s q → b ++ rest ≠ s ++ r

/-- As before, and no sequent text starts in the texts before, between and after the sequents. -/
inductive AllOf : List Char → List Sequent → Prop
  | nil (g : List Char) (hg : NoneStarts g []) : AllOf g []
  | cons (g s rest : List Char) (q : Sequent) (l : List Sequent) (hg : NoneStarts g (s ++ rest))
      (hs : SequentWritten s q) (hr : AllOf rest l) : AllOf (g ++ (s ++ rest)) (q :: l)

/-! ### Lemmas -/

section
variable {α β : Type}

theorem bind_ok {p : Parser α} {f : α → Parser β} {st st' : PSt} {i : List Char} {x : β × List Char}
    (h : (p >>= f) st i = .ok (st', some x)) : ∃ s a r, p st i = .ok (s, some (a, r)) ∧ f a s r = .ok (st', some x) := by
  simp only [bind] at h
  split at h
  · cases h
  · cases h
  · next s a r h' => exact ⟨s, a, r, h', h⟩

theorem alt_ok {p q : Parser α} {st st' : PSt} {i : List Char} {x : α × List Char}
    (h : p.alt q st i = .ok (st', some x)) :
    p st i = .ok (st', some x) ∨ ∃ s, p st i = .ok (s, none) ∧ q s i = .ok (st', some x) := by
  unfold Parser.alt at h
  split at h
  · cases h
  · next h' => cases h; exact Or.inl h'
  · next s h' => exact Or.inr ⟨s, h', h⟩

end

theorem lit_inv {s : List Char} {st st' : PSt} {i : List Char} {x : Unit × List Char}
    (h : lit s st i = .ok (st', some x)) : ∃ w, Ws w ∧ i = w ++ (s ++ x.2) := by
  unfold lit tok at h
  simp only [Except.ok.injEq, Prod.mk.injEq] at h
  obtain ⟨rfl, h⟩ := h
  obtain ⟨w, hw, e⟩ := ws_split i
  split at h
  · next hp =>
    cases h
    obtain ⟨t, ht⟩ := List.isPrefixOf_iff_prefix.1 hp
    refine ⟨w, hw, ?_⟩
    conv_lhs => rw [e]
    rw [← ht, List.drop_left]
  · cases h

theorem wordChar_iff {c : Char} : (isVar c || c == '$') = true ↔ WordChar c := by
  unfold WordChar
  rw [Bool.or_eq_true, isVar_iff, beq_iff_eq]
  tauto

theorem kw_inv {s : List Char} {st st' : PSt} {i : List Char} {x : Unit × List Char}
    (h : kw s st i = .ok (st', some x)) : ∃ w, Ws w ∧ i = w ++ (s ++ x.2) ∧ ∀ c r, x.2 = c :: r → ¬ WordChar c := by
  unfold kw tok at h
  simp only [Except.ok.injEq, Prod.mk.injEq] at h
  obtain ⟨rfl, h⟩ := h
  obtain ⟨w, hw, e⟩ := ws_split i
  split at h
  · next hp =>
    obtain ⟨t, ht⟩ := List.isPrefixOf_iff_prefix.1 hp
    rw [← ht, List.drop_left] at h
    have hx : x.2 = t ∧ ∀ c r, t = c :: r → ¬ WordChar c := by
      split at h
      · cases h
        exact ⟨rfl, fun c r hc => by cases hc⟩
      · next c r =>
        split at h
        · cases h
        · next hc =>
          cases h
          refine ⟨rfl, fun c' r' hc' => ?_⟩
          cases hc'
          rw [← wordChar_iff]
          exact hc
    obtain ⟨hx1, hx2⟩ := hx
    rw [hx1]
    refine ⟨w, hw, ?_, hx2⟩
    conv_lhs => rw [e]
    rw [← ht]
  · cases h

theorem digits1_inv {i a r : List Char} (h : digits1 i = some (a, r)) : i = a ++ r ∧ Digits a := by
  refine ⟨digits1_split h, ?_⟩
  unfold digits1 at h
  split at h
  · cases h
  · next c x =>
    split at h
    · next hc =>
      cases h
      refine ⟨by simp, ?_⟩
      intro d hd
      rcases List.mem_cons.1 hd with rfl | hd
      · exact isNum_iff.1 hc
      · exact isNum_iff.1 (List.all_eq_true.1 List.all_takeWhile d hd)
    · cases h

theorem optNeg_inv (i : List Char) : ∃ w, Ws w ∧ i = w ++ ((if (optNeg i).1 then ['-'] else []) ++ (optNeg i).2) ∧
    ((optNeg i).1 = false → skipWs (optNeg i).2 = (optNeg i).2) := by
  obtain ⟨w, hw, e⟩ := ws_split i
  refine ⟨w, hw, ?_, ?_⟩
  · conv_lhs => rw [e]
    unfold optNeg
    split
    · next h => rw [h]; simp
    · simp
  · intro h
    have h2 : (optNeg i).2 = skipWs i := by
      unfold optNeg at h ⊢
      split
      · next h' => simp [h'] at h
      · rfl
    rw [h2]
    cases hs : skipWs i with
    | nil => rfl
    | cons c r => exact skipWs_cons (skipWs_head hs)

theorem optDot_inv (i : List Char) : ∃ (dot : Bool) (v : List Char), Ws v ∧
    i = (if dot then v ++ ['.'] else []) ++ optDot i := by
  obtain ⟨w, hw, e⟩ := ws_split i
  unfold optDot
  split
  · next r h =>
    refine ⟨true, w, hw, ?_⟩
    conv_lhs => rw [e, h]
    simp
  · exact ⟨false, [], nil_ws, rfl⟩

/-- What a successful reading of a term says about the text. -/
def IsTerm (i : List Char) (t : Tm) (r : List Char) : Prop :=
  ∃ w s, Ws w ∧ i = w ++ (s ++ r) ∧ TermWritten s t

theorem realTok_inv {i r : List Char} {t : Tm} (h : realTok i = some (t, r)) : IsTerm i t r := by
  obtain ⟨w, hw, e, _⟩ := optNeg_inv i
  unfold realTok at h
  split at h
  · next a r' hd =>
    obtain ⟨h1, h2⟩ := digits1_inv hd
    split at h
    · next b r'' hb =>
      cases h
      obtain ⟨h4, h5⟩ := digits1_inv hb
      have ht := TermWritten.dec (optNeg i).1 a b h2 h5
      rw [← digitsVal_eq, ← digitsVal_eq] at ht
      refine ⟨w, _, hw, ?_, ht⟩
      refine e.trans ?_
      rw [h1, h4]
      simp
    · cases h
  · cases h

theorem intTok_inv {i r : List Char} {t : Tm} (h : intTok i = some (t, r)) : IsTerm i t r := by
  obtain ⟨w, hw, e, hs⟩ := optNeg_inv i
  unfold intTok at h
  split at h
  · next a r' hd =>
    cases h
    obtain ⟨h1, h2⟩ := digits1_inv hd
    obtain ⟨dot, v, hv, ev⟩ := optDot_inv r'
    obtain ⟨w', hw', e'⟩ := ws_split (optNeg i).2
    have ht := TermWritten.int (optNeg i).1 dot w' v a hw' hv h2
    rw [← digitsVal_eq] at ht
    refine ⟨w, _, hw, ?_, ht⟩
    refine e.trans ?_
    congr 1
    cases hn : (optNeg i).1 with
    | true =>
      rw [e', h1]
      conv_lhs => rw [ev]
      simp
    | false =>
      rw [← hs hn, h1]
      conv_lhs => rw [ev]
      simp
  · cases h

theorem varTok_inv {i r s : List Char} (h : varTok i = some (s, r)) :
    ∃ w, Ws w ∧ i = w ++ (s ++ r) ∧ Name s := by
  obtain ⟨w, hw, e⟩ := ws_split i
  unfold varTok at h
  split at h
  · cases h
  · next c x hx =>
    split at h
    · next hc =>
      cases h
      refine ⟨w, hw, ?_, c, _, rfl, isVar1_iff.1 hc, ?_⟩
      · rw [List.cons_append, List.takeWhile_append_dropWhile, ← hx]
        exact e
      · intro d hd
        exact isVar_iff.1 (List.all_eq_true.1 List.all_takeWhile d hd)
    · cases h

theorem useSympy_inv {b : Bool} {st st' : PSt} {i : List Char} {x : Unit × List Char}
    (h : useSympy b st i = .ok (st', some x)) : x.2 = i := by
  unfold useSympy at h
  split at h
  · cases h
  · cases h; rfl

theorem fn2_inv (o : BinOp) {T : Parser Tm} (hT : ∀ st st' i t r, T st i = .ok (st', some (t, r)) → IsTerm i t r)
    {st st' : PSt} {i r : List Char} {t : Tm} (h : fn2 o.sym o.tm T st i = .ok (st', some (t, r))) : IsTerm i t r := by
  unfold fn2 at h
  obtain ⟨_, _, _, h0, h⟩ := bind_ok h
  obtain ⟨_, _, _, h1, h⟩ := bind_ok h
  obtain ⟨_, _, _, h2, h⟩ := bind_ok h
  obtain ⟨_, _, _, h3, h⟩ := bind_ok h
  obtain ⟨_, _, _, h4, h⟩ := bind_ok h
  obtain ⟨w, hw, e0⟩ := lit_inv h0
  obtain ⟨w₁, hw₁, e1⟩ := lit_inv h1
  obtain ⟨w₂, a, hw₂, e2, ha⟩ := hT _ _ _ _ _ h2
  obtain ⟨w₃, b, hw₃, e3, hb⟩ := hT _ _ _ _ _ h3
  obtain ⟨w₄, hw₄, e4⟩ := lit_inv h4
  cases h
  simp only at e0 e1 e4
  refine ⟨w, _, hw, ?_, TermWritten.bin o w₁ w₂ w₃ w₄ a b _ _ hw₁ hw₂ hw₃ hw₄ ha hb⟩
  rw [e0, e1, e2, e3, e4]
  simp

theorem term_inv : ∀ (n : ℕ) (st st' : PSt) (i : List Char) (t : Tm) (r : List Char),
    term n st i = .ok (st', some (t, r)) → IsTerm i t r := by
  intro n
  induction n with
  | zero => intro st st' i p r h; cases h
  | succ n ih =>
    intro st st' i t r h
    unfold term at h
    rcases alt_ok h with h | ⟨s1, _, h⟩
    · rcases alt_ok h with h | ⟨s1, _, h⟩
      · rcases alt_ok h with h | ⟨s1, _, h⟩
        · unfold realP at h
          obtain ⟨_, x, r', h1, h⟩ := bind_ok h
          obtain ⟨_, _, _, h2, h⟩ := bind_ok h
          unfold tok at h1
          simp only [Except.ok.injEq, Prod.mk.injEq] at h1
          have hr := useSympy_inv h2
          cases h
          simp only at hr
          subst hr
          exact realTok_inv h1.2
        · unfold intP at h
          obtain ⟨_, x, r', h1, h⟩ := bind_ok h
          obtain ⟨_, _, _, h2, h⟩ := bind_ok h
          unfold tok at h1
          simp only [Except.ok.injEq, Prod.mk.injEq] at h1
          have hr := useSympy_inv h2
          cases h
          simp only at hr
          subst hr
          exact intTok_inv h1.2
      · unfold varP at h
        obtain ⟨_, x, r', h1, h⟩ := bind_ok h
        obtain ⟨_, _, _, h2, h⟩ := bind_ok h
        obtain ⟨_, _, _, h3, h⟩ := bind_ok h
        unfold tok at h1
        simp only [Except.ok.injEq, Prod.mk.injEq] at h1
        have hr := useSympy_inv h2
        cases h
        cases h3
        simp only at hr
        subst hr
        obtain ⟨w, hw, e, hn⟩ := varTok_inv h1.2
        exact ⟨w, _, hw, e, .var _ hn⟩
    rcases alt_ok h with h | ⟨s3, _, h⟩
    · exact fn2_inv .add ih h
    rcases alt_ok h with h | ⟨s4, _, h⟩
    · exact fn2_inv .mul ih h
    rcases alt_ok h with h | ⟨s5, _, h⟩
    · exact fn2_inv .sub ih h
    rcases alt_ok h with h | ⟨s6, _, h⟩
    · exact fn2_inv .div ih h
    unfold fnNeg at h
    obtain ⟨_, _, _, h0, h⟩ := bind_ok h
    obtain ⟨_, _, _, h1, h⟩ := bind_ok h
    obtain ⟨_, _, _, h2, h⟩ := bind_ok h
    obtain ⟨_, _, _, h4, h⟩ := bind_ok h
    obtain ⟨w, hw, e0⟩ := lit_inv h0
    obtain ⟨w₁, hw₁, e1⟩ := lit_inv h1
    obtain ⟨w₂, a, hw₂, e2, ha⟩ := ih _ _ _ _ _ h2
    obtain ⟨w₄, hw₄, e4⟩ := lit_inv h4
    cases h
    simp only at e0 e1 e4
    refine ⟨w, _, hw, ?_, TermWritten.neg w₁ w₂ w₄ a _ hw₁ hw₂ hw₄ ha⟩
    rw [e0, e1, e2, e4]
    simp

theorem rln_inv (k : RelKind) {n : ℕ} {st st' : PSt} {i r : List Char} {x : Rel Tm}
    (h : rln (relSymbol k) k n st i = .ok (st', some (x, r))) :
    ∃ w s, Ws w ∧ i = w ++ (s ++ r) ∧ RelWritten s x := by
  unfold rln at h
  obtain ⟨_, _, _, h0, h⟩ := bind_ok h
  obtain ⟨_, _, _, h1, h⟩ := bind_ok h
  obtain ⟨_, _, _, h2, h⟩ := bind_ok h
  obtain ⟨_, _, _, h3, h⟩ := bind_ok h
  obtain ⟨_, _, _, h4, h⟩ := bind_ok h
  obtain ⟨_, _, _, h5, h⟩ := bind_ok h
  obtain ⟨w, hw, e0⟩ := lit_inv h0
  obtain ⟨w₁, hw₁, e1, hk⟩ := kw_inv h1
  obtain ⟨w₂, a, hw₂, e2, ha⟩ := term_inv _ _ _ _ _ _ h2
  obtain ⟨w₃, b, hw₃, e3, hb⟩ := term_inv _ _ _ _ _ _ h3
  obtain ⟨w₄, hw₄, e4⟩ := lit_inv h4
  have e5 := useSympy_inv h5
  cases h
  simp only at e0 e1 e4 e5 hk
  refine ⟨w, _, hw, ?_, RelWritten.mk w₁ w₂ w₃ w₄ a b k _ _ hw₁ hw₂ hw₃ hw₄ ha hb ?_⟩
  · rw [e0, e1, e2, e3, e4, e5]
    simp
  · intro c r hc
    apply hk c
    rw [e2, ← List.append_assoc, hc]
    rfl

theorem fml_inv {n : ℕ} {st st' : PSt} {i r : List Char} {x : Rel Tm} (h : fml n st i = .ok (st', some (x, r))) :
    ∃ w s, Ws w ∧ i = w ++ (s ++ r) ∧ RelWritten s x := by
  unfold fml at h
  rcases alt_ok h with h | ⟨s1, _, h⟩
  · exact rln_inv .le h
  rcases alt_ok h with h | ⟨s1, _, h⟩
  · exact rln_inv .lt h
  rcases alt_ok h with h | ⟨s1, _, h⟩
  · exact rln_inv .eq h
  rcases alt_ok h with h | ⟨s1, _, h⟩
  · exact rln_inv .ne h
  rcases alt_ok h with h | ⟨s1, _, h⟩
  · exact rln_inv .ge h
  · exact rln_inv .gt h

theorem many_inv (n : ℕ) : ∀ (m : ℕ) (st st' : PSt) (i : List Char) (l : List (Rel Tm)) (r : List Char),
    many (fml n) m st i = .ok (st', some (l, r)) → ∀ w r', Ws w → r = w ++ r' →
      ∃ s, i = s ++ r' ∧ RelsWritten s l := by
  intro m
  induction m with
  | zero => intro st st' i l r h; cases h
  | succ m ih =>
    intro st st' i l r h w r' hw hr
    unfold many at h
    split at h
    · cases h
    · cases h
      exact ⟨w, hr, RelsWritten.nil w hw⟩
    · next a ra h0 =>
      obtain ⟨w₀, s, hw₀, e, hf⟩ := fml_inv h0
      obtain ⟨_, l1, r1, h1, h2⟩ := bind_ok h
      cases h2
      obtain ⟨s', e', hl⟩ := ih _ _ _ _ _ h1 w r' hw hr
      refine ⟨_, ?_, RelsWritten.cons w₀ s s' _ _ hw₀ hf hl⟩
      rw [e, e']
      simp

theorem side_inv (n : ℕ) {kwd : List Char} {st st' : PSt} {i r : List Char} {l : List (Rel Tm)}
    (h : side kwd n st i = .ok (st', some (l, r))) :
    ∃ w w₁ s, Ws w ∧ Ws w₁ ∧ RelsWritten s l ∧ i = w ++ '(' :: (w₁ ++ (kwd ++ (s ++ ')' :: r))) := by
  unfold side at h
  obtain ⟨_, _, _, h0, h⟩ := bind_ok h
  obtain ⟨_, _, _, h1, h⟩ := bind_ok h
  obtain ⟨_, _, _, h2, h⟩ := bind_ok h
  obtain ⟨_, _, _, h4, h⟩ := bind_ok h
  obtain ⟨w, hw, e0⟩ := lit_inv h0
  obtain ⟨w₁, hw₁, e1⟩ := lit_inv h1
  obtain ⟨w₄, hw₄, e4⟩ := lit_inv h4
  obtain ⟨s, e2, hl⟩ := many_inv n _ _ _ _ _ _ h2 w₄ _ hw₄ e4
  cases h
  simp only at e0 e1 e4 e2
  refine ⟨w, w₁, s, hw, hw₁, hl, ?_⟩
  rw [e0, e1, e2]
  simp

theorem quoted_inv {st st' : PSt} {i : List Char} {x : List Char × List Char}
    (h : quoted st i = .ok (st', some x)) : ∃ w, Ws w ∧ '"' ∉ x.1 ∧ i = w ++ '"' :: (x.1 ++ '"' :: x.2) := by
  unfold quoted tok at h
  simp only [Except.ok.injEq, Prod.mk.injEq] at h
  obtain ⟨_, h⟩ := h
  obtain ⟨w, hw, e⟩ := ws_split i
  split at h
  · next r hr =>
    split at h
    · cases h
    · next c r' hd =>
      cases h
      refine ⟨w, hw, ?_, ?_⟩
      · intro hm
        have := List.all_eq_true.1 (List.all_takeWhile (p := fun c => c != '"')) _ hm
        simp at this
      · have hc : c = '"' := by
          have := List.head?_dropWhile_not (fun c => c != '"') r
          rw [hd] at this
          simpa using this
        subst hc
        conv_lhs => rw [e, hr]
        congr 2
        rw [← hd]
        exact (List.takeWhile_append_dropWhile ..).symm
  · cases h

theorem cmd_inv (n : ℕ) {st st' : PSt} {i r : List Char} {q : Sequent} (h : cmd n st i = .ok (st', some (q, r))) :
    ∃ w s, Ws w ∧ i = w ++ (s ++ r) ∧ SequentWritten s q := by
  unfold cmd at h
  obtain ⟨_, _, _, h0, h⟩ := bind_ok h
  obtain ⟨_, _, _, h1, h⟩ := bind_ok h
  obtain ⟨_, _, _, h2, h⟩ := bind_ok h
  obtain ⟨_, _, _, h3, h⟩ := bind_ok h
  obtain ⟨_, _, _, h5, h⟩ := bind_ok h
  obtain ⟨_, _, _, h7, h⟩ := bind_ok h
  obtain ⟨w, hw, e0⟩ := lit_inv h0
  obtain ⟨w₁, hw₁, e1⟩ := lit_inv h1
  obtain ⟨w₂, hw₂, hn, e2⟩ := quoted_inv h2
  obtain ⟨w₃, w₄, a, hw₃, hw₄, ha, e3⟩ := side_inv _ h3
  obtain ⟨w₅, w₆, b, hw₅, hw₆, hb, e5⟩ := side_inv _ h5
  obtain ⟨w₇, hw₇, e7⟩ := lit_inv h7
  cases h
  simp only at e0 e1 e2 e3 e5 e7 hn
  refine ⟨w, _, hw, ?_, SequentWritten.mk w₁ w₂ w₃ w₄ w₅ w₆ w₇ _ a b _ _ hw₁ hw₂ hw₃ hw₄ hw₅ hw₆ hw₇ hn ha hb⟩
  rw [e0, e1, e2, e3, e5, e7]
  simp

theorem WrittenIn.gap {i : List Char} {l : List Sequent} (h : WrittenIn i l) (g : List Char) : WrittenIn (g ++ i) l := by
  cases h with
  | nil g' => exact .nil _
  | cons g' s rest q l hs hr =>
    rw [← List.append_assoc]
    exact .cons _ s rest q l hs hr

theorem scan_written (n : ℕ) : ∀ (k : ℕ) (st st' : PSt) (i : List Char) (l : List Sequent),
    scan n k st i = .ok (st', l) → WrittenIn i l := by
  intro k
  induction k with
  | zero => intro st st' i l h; cases h
  | succ k ih =>
    intro st st' i l h
    obtain ⟨w, hw, e⟩ := ws_split i
    unfold scan at h
    split at h
    · cases h
    · next s1 q r hc =>
      split at h
      · cases h
      · next s2 l' hl =>
        cases h
        obtain ⟨w', s, hw', e', hs⟩ := cmd_inv n hc
        rw [e, e', ← List.append_assoc]
        exact .cons _ s r q l' hs (ih _ _ _ _ hl)
    · split at h
      · cases h; exact .nil _
      · next c r hr =>
        rw [e, hr]
        have := (ih _ _ _ _ h).gap (w ++ [c])
        rwa [List.append_assoc] at this

/-- **C78**: whatever the files are, the sequents that are returned for a file are written in it, in this order and
without overlap, with the names, relations and terms as returned. -/
theorem C78_written (st st' : PSt) (text : List Char) (l : List Sequent) (h : parseFile st text = .ok (st', l)) :
    WrittenIn text l := by
  unfold parseFile at h
  split at h
  · cases h
  · exact scan_written _ _ _ _ _ _ h

theorem mem_dictSet {α β : Type} [DecidableEq α] {d : List (α × β)} {k : α} {v : β} {e : α × β}
    (h : e ∈ dictSet d k v) : e = (k, v) ∨ (e ∈ d ∧ e.1 ≠ k) := by
  unfold dictSet at h
  split at h
  · obtain ⟨e', he', rfl⟩ := List.mem_map.1 h
    split
    · exact Or.inl rfl
    · next hne => exact Or.inr ⟨he', hne⟩
  · next hn =>
    rcases List.mem_append.1 h with h | h
    · refine Or.inr ⟨h, fun hk => hn ?_⟩
      rw [List.any_eq_true]
      exact ⟨e, h, by simpa using hk⟩
    · exact Or.inl (List.mem_singleton.1 h)

theorem keys_dictSet {α β : Type} [DecidableEq α] (d : List (α × β)) (k : α) (v : β) :
    ∀ x, x ∈ (dictSet d k v).map Prod.fst ↔ x = k ∨ x ∈ d.map Prod.fst := by
  intro x
  unfold dictSet
  split
  · next h =>
    have e : (d.map fun e => if e.1 = k then (k, v) else e).map Prod.fst = d.map Prod.fst := by
      rw [List.map_map]
      apply List.map_congr_left
      intro e _
      simp only [Function.comp]
      split
      · next h => exact h.symm
      · rfl
    rw [e]
    refine ⟨Or.inr, ?_⟩
    rintro (rfl | h')
    · rw [List.any_eq_true] at h
      obtain ⟨e, he, hek⟩ := h
      rw [← (by simpa using hek : e.1 = x)]
      exact List.mem_map_of_mem he
    · exact h'
  · simp [or_comm]

/-- **C78**, several files: the keys of the result are the names of the files, and what is returned for a name is what
is written in the last file with this name. -/
theorem C78_files (st st' : PSt) (files : List (List Char × List Char)) (ret : List (List Char × List Sequent))
    (h : parseFiles st files [] = .ok (st', ret)) :
    (∀ x, x ∈ ret.map Prod.fst ↔ x ∈ files.map Prod.fst) ∧
    ∀ e ∈ ret, ∃ fs fs' text, files = fs ++ (e.1, text) :: fs' ∧ (∀ f ∈ fs', f.1 ≠ e.1) ∧ WrittenIn text e.2 := by
  have key : ∀ (files : List (List Char × List Char)) (st st' : PSt) (ret ret' : List (List Char × List Sequent)),
      parseFiles st files ret = .ok (st', ret') →
      (∀ x, x ∈ ret'.map Prod.fst ↔ x ∈ ret.map Prod.fst ∨ x ∈ files.map Prod.fst) ∧
      ∀ e ∈ ret', (e ∈ ret ∧ ∀ f ∈ files, f.1 ≠ e.1) ∨
        ∃ fs fs' text, files = fs ++ (e.1, text) :: fs' ∧ (∀ f ∈ fs', f.1 ≠ e.1) ∧ WrittenIn text e.2 := by
    intro files
    induction files with
    | nil =>
      intro st st' ret ret' h
      cases h
      exact ⟨by simp, fun e he => Or.inl ⟨he, by simp⟩⟩
    | cons f files ih =>
      intro st st' ret ret' h
      obtain ⟨name, text⟩ := f
      unfold parseFiles at h
      split at h
      · cases h
      · next s1 l hl =>
        obtain ⟨hk, he⟩ := ih _ _ _ _ h
        refine ⟨?_, ?_⟩
        · intro x
          rw [hk, keys_dictSet]
          simp only [List.map_cons, List.mem_cons]
          tauto
        · intro e hmem
          rcases he e hmem with ⟨h1, h2⟩ | ⟨fs, fs', t, e1, e2, e3⟩
          · rcases mem_dictSet h1 with rfl | ⟨h3, h4⟩
            · exact Or.inr ⟨[], files, text, rfl, h2, C78_written _ _ _ _ hl⟩
            · refine Or.inl ⟨h3, ?_⟩
              intro f hf
              rcases List.mem_cons.1 hf with rfl | hf
              · exact fun hh => h4 hh.symm
              · exact h2 f hf
          · exact Or.inr ⟨(name, text) :: fs, fs', t, by rw [e1]; rfl, e2, e3⟩
  obtain ⟨h1, h2⟩ := key files st st' [] ret h
  refine ⟨by simpa using h1, ?_⟩
  intro e he
  rcases h2 e he with ⟨h, _⟩ | h
  · simp at h
  · exact h

/-! ### Nothing that is written well is passed over -/

theorem names_infix {s : List Char} {t : Tm} (h : TermText s t) : ∀ x ∈ t.names, x <:+: s := by
  have two : ∀ (c : Char) (w₁ w₂ w₃ w₄ a b : List Char) (la lb : List (List Char)),
      (∀ x ∈ la, x <:+: a) → (∀ x ∈ lb, x <:+: b) → ∀ x ∈ la ++ lb,
        x <:+: '(' :: (w₁ ++ c :: (w₂ ++ (a ++ (w₃ ++ (b ++ (w₄ ++ [')'])))))) := by
    intro c w₁ w₂ w₃ w₄ a b la lb ha hb x hx
    rcases List.mem_append.1 hx with hx | hx
    · obtain ⟨u, v, e⟩ := ha x hx
      exact ⟨'(' :: (w₁ ++ c :: (w₂ ++ u)), v ++ (w₃ ++ (b ++ (w₄ ++ [')']))), by simp [← e]⟩
    · obtain ⟨u, v, e⟩ := hb x hx
      exact ⟨'(' :: (w₁ ++ c :: (w₂ ++ (a ++ (w₃ ++ u)))), v ++ (w₄ ++ [')']), by simp [← e]⟩
  induction h with
  | int | nint | dec | ndec => intro x hx; simp [Tm.names] at hx
  | var s h =>
    intro x hx
    rw [List.mem_singleton.1 hx]
  | add w₁ w₂ w₃ w₄ a b _ _ _ _ _ _ _ _ _ iha ihb => exact two '+' w₁ w₂ w₃ w₄ a b _ _ iha ihb
  | mul w₁ w₂ w₃ w₄ a b _ _ _ _ _ _ _ _ _ iha ihb => exact two '*' w₁ w₂ w₃ w₄ a b _ _ iha ihb
  | sub w₁ w₂ w₃ w₄ a b _ _ _ _ _ _ _ _ _ iha ihb => exact two '-' w₁ w₂ w₃ w₄ a b _ _ iha ihb
  | div w₁ w₂ w₃ w₄ a b _ _ _ _ _ _ _ _ _ iha ihb => exact two '/' w₁ w₂ w₃ w₄ a b _ _ iha ihb
  | neg w₁ w₂ w₄ a ta _ _ _ _ ih =>
    intro x hx
    obtain ⟨u, v, e⟩ := ih x hx
    exact ⟨'(' :: (w₁ ++ '-' :: (w₂ ++ u)), v ++ (w₄ ++ [')']), by simp [← e]⟩

theorem relNames_infix {s : List Char} {r : Rel Tm} (h : RelText s r) : ∀ x ∈ relNames r, x <:+: s := by
  cases h with
  | mk w₁ w₂ w₃ w₄ a b k ta tb _ _ _ _ _ _ ha hb =>
    intro x hx
    rcases List.mem_append.1 hx with hx | hx
    · obtain ⟨u, v, e⟩ := names_infix ha x hx
      exact ⟨'(' :: (w₁ ++ (relSymbol k ++ (w₂ ++ u))), v ++ (w₃ ++ (b ++ (w₄ ++ [')']))), by simp [← e]⟩
    · obtain ⟨u, v, e⟩ := names_infix hb x hx
      exact ⟨'(' :: (w₁ ++ (relSymbol k ++ (w₂ ++ (a ++ (w₃ ++ u))))), v ++ (w₄ ++ [')']), by simp [← e]⟩

theorem relsNames_infix {s : List Char} {l : List (Rel Tm)} (h : RelsText s l) : ∀ r ∈ l, ∀ x ∈ relNames r, x <:+: s := by
  induction h with
  | nil => intro r hr; simp at hr
  | cons w s rest r l _ hs _ ih =>
    intro r' hr' x hx
    rcases List.mem_cons.1 hr' with rfl | hr'
    · obtain ⟨u, v, e⟩ := relNames_infix hs x hx
      exact ⟨w ++ u, v ++ rest, by simp [← e]⟩
    · obtain ⟨u, v, e⟩ := ih r' hr' x hx
      exact ⟨w ++ (s ++ u), v, by simp [← e]⟩

theorem sequentNames_infix {s : List Char} {q : Sequent} (h : SequentText s q) : ∀ x ∈ sequentNames q, x <:+: s := by
  cases h with
  | mk w₁ w₂ w₃ w₄ w₅ w₆ w₇ name a s la ls _ _ _ _ _ _ _ _ ha hs =>
    intro x hx
    unfold sequentNames at hx
    obtain ⟨r, hr, hx⟩ := List.mem_flatMap.1 hx
    rcases List.mem_append.1 hr with hr | hr
    · obtain ⟨u, v, e⟩ := relsNames_infix ha r hr x hx
      refine (List.IsInfix.trans ⟨u, v, e⟩ (?_ : a <:+: _))
      refine ⟨'(' :: (w₁ ++ ("sequent".toList ++ (w₂ ++ ('"' :: (name ++ ('"' :: (w₃ ++ ('(' :: (w₄ ++
        "antecedent".toList))))))))), ')' :: (w₅ ++ ('(' :: (w₆ ++ ("succedent".toList ++ (s ++ (')' :: (w₇ ++
        [')']))))))), ?_⟩
      simp only [List.append_assoc, List.cons_append]
    · obtain ⟨u, v, e⟩ := relsNames_infix hs r hr x hx
      refine (List.IsInfix.trans ⟨u, v, e⟩ (?_ : s <:+: _))
      refine ⟨'(' :: (w₁ ++ ("sequent".toList ++ (w₂ ++ ('"' :: (name ++ ('"' :: (w₃ ++ ('(' :: (w₄ ++
        ("antecedent".toList ++ (a ++ (')' :: (w₅ ++ ('(' :: (w₆ ++ "succedent".toList))))))))))))))), ')' :: (w₇ ++
        [')']), ?_⟩
      simp only [List.append_assoc, List.cons_append]

theorem NoGlobals.plain {s rest : List Char} {q : Sequent} (h : SequentText s q) (hg : NoGlobals (s ++ rest)) :
    Plain (sequentNames q) := by
  intro x hx
  have hi : x <:+: s ++ rest := (sequentNames_infix h x hx).trans (List.prefix_append s rest).isInfix
  refine ⟨?_, ?_⟩
  · rintro rfl
    exact hg _ (by simp [moduleGlobals]) hi
  · rintro rfl
    exact hg _ (by simp [moduleGlobals]) hi

theorem AllOf.gap {i : List Char} {l : List Sequent} (h : AllOf i l) (g : List Char) (hg : NoneStarts g i) :
    AllOf (g ++ i) l := by
  have join : ∀ g' rest, NoneStarts g (g' ++ rest) → NoneStarts g' rest → NoneStarts (g ++ g') rest := by
    intro g' rest h1 h2 a b s q r hab hb hs
    rcases List.append_eq_append_iff.1 hab with ⟨u, rfl, hu⟩ | ⟨u, rfl, hu⟩
    · exact h2 u b s q r hu hb hs
    · cases u with
      | nil =>
        simp only [List.nil_append] at hu
        subst hu
        exact h2 [] b s q r rfl hb hs
      | cons c u =>
        have := h1 a (c :: u) s q r rfl (by simp) hs
        rw [← List.append_assoc, ← hu] at this
        exact this
  cases h with
  | nil g' hg' => exact .nil _ (join _ _ (by simpa using hg) hg')
  | cons g' s rest q l hg' hs hr =>
    rw [← List.append_assoc]
    exact .cons _ s rest q l (join _ _ hg hg') hs hr

theorem noneStarts_ws {w : List Char} (hw : Ws w) (rest : List Char) : NoneStarts w rest := by
  intro a b s q r e hb hs h
  cases b with
  | nil => exact hb rfl
  | cons c b =>
    obtain ⟨x, hx⟩ := sequent_head hs r
    rw [hx, List.cons_append] at h
    cases h
    have := hw '(' (by rw [e]; simp)
    revert this
    decide

theorem scan_all (n : ℕ) : ∀ (k : ℕ) (i : List Char), i.length < k → i.length < n → NoGlobals i → ∀ st : PSt,
    st.shadowed = [] → ∃ st' l, scan n k st i = .ok (st', l) ∧ st'.shadowed = [] ∧ AllOf i l := by
  intro k
  induction k with
  | zero => intro i hi; omega
  | succ k ih =>
    intro i hk hn hg st hst
    obtain ⟨w, hws, hw⟩ := ws_split i
    have hlen : i.length = w.length + (skipWs i).length := by
      have := congrArg List.length hw
      simpa using this
    have hg' : NoGlobals (skipWs i) := by rw [hw] at hg; exact hg.suffix
    obtain ⟨st', o, e, hst', ho⟩ := safe_cmd n (skipWs i) (by omega) hg' st hst
    rw [scan, e]
    have hmiss : ∀ s q r, SequentText s q → o = none → skipWs i ≠ s ++ r := by
      intro s q r hs hno heq
      have hl : s.length ≤ n := by
        have := congrArg List.length heq
        rw [List.length_append] at this
        omega
      have := cmd_text hs (NoGlobals.plain hs (rest := r) (heq ▸ hg')) n hl st hst r
      rw [← heq, e, hno] at this
      cases this
    cases o with
    | none =>
      simp only
      cases hs : skipWs i with
      | nil =>
        refine ⟨st', [], rfl, hst', .nil _ ?_⟩
        rw [hs, List.append_nil] at hw
        rw [hw]
        exact noneStarts_ws hws _
      | cons c r =>
        rw [hs] at hlen hg' hw
        simp only [List.length_cons] at hlen
        obtain ⟨st'', l, e', hst'', ha⟩ :=
          ih r (by omega) (by omega) (NoGlobals.suffix (u := [c]) hg') st' hst'
        refine ⟨st'', l, e', hst'', ?_⟩
        rw [hw]
        have h1 : AllOf ([c] ++ r) l := by
          refine ha.gap [c] ?_
          intro a b s q r' hab hb hsq heq
          have hb' : b = [c] := by
            cases a with
            | nil => exact hab.symm
            | cons d a =>
              simp only [List.cons_append, List.cons.injEq] at hab
              have := List.append_eq_nil_iff.1 hab.2.symm
              exact absurd this.2 hb
          rw [hb'] at heq
          exact hmiss s q r' hsq rfl (by rw [hs]; exact heq)
        exact h1.gap w (noneStarts_ws hws _)
    | some x =>
      obtain ⟨q, r⟩ := x
      obtain ⟨u, hu, hd⟩ := ho q r rfl
      obtain ⟨w', s, hw', e', hs⟩ := cmd_inv n e
      rw [hu] at hlen hg'
      simp only [List.length_append] at hlen
      obtain ⟨st'', l, e'', hst'', ha⟩ := ih r (by omega) (by omega) hg'.suffix st' hst'
      simp only
      rw [e'']
      refine ⟨st'', q :: l, rfl, hst'', ?_⟩
      rw [hw, e']
      refine AllOf.gap ?_ w (noneStarts_ws hws _)
      exact .cons w' s r q l (noneStarts_ws hw' _) hs ha

/-- **C63**, what holds: a file in which `sympy` and `cmd` do not occur is read without exception, and the text is
divided into the sequents that are returned and texts in which no sequent text (of the syntax of C48) starts. Missing:
sequents that are not of this syntax are left out silently (`C63_violated`). -/
theorem C63_partial (st : PSt) (hst : st.shadowed = []) (text : List Char) (h : NoGlobals text) :
    ∃ st' l, parseFile st text = .ok (st', l) ∧ AllOf text l := by
  obtain ⟨st', l, e, _, ha⟩ := scan_all (text.length + 1) (text.length + 1) text (by omega) (by omega) h st hst
  refine ⟨st', l, ?_, ha⟩
  unfold parseFile
  rw [if_neg (by simp [hst]), e]

example : NoGlobals sampleText ∧ WrittenIn sampleText [sampleSequent] := by
  refine ⟨by unfold NoGlobals; decide +kernel, ?_⟩
  obtain ⟨st, h⟩ := C48_reading sampleText [sampleSequent] sample_text (by
    intro q hq s hs
    rw [List.mem_singleton.1 hq] at hs
    have : s ∈ [['x'], ['x'], "y_1".toList] := hs
    simp only [List.mem_cons, List.not_mem_nil, or_false] at this
    rcases this with rfl | rfl | rfl <;> decide)
  exact C78_written _ _ _ _ h

/-- A relation symbol directly followed by a name is not read (but directly followed by a parenthesis it is). -/
example : (parseFile ⟨[], 0⟩ "(sequent \"a\" (antecedent) (succedent (<x 0)))".toList).toOption.map Prod.snd = some [] ∧
    (parseFile ⟨[], 0⟩ "(sequent\"a\"(antecedent)(succedent(<(*2x)- 3 .)))".toList).toOption.map Prod.snd =
      some [⟨['a'], [], [⟨.lt, .mul (.int 2) (.var ['x']), .int (-3)⟩]⟩] := by
  decide +kernel

end Verif.Vts
