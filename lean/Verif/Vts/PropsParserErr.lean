import Verif.Vts.PropsParser
import Mathlib.Analysis.SpecificLimits.Normed

/-!
# C63-C65: what the reader of sequents does with other texts, its work, and its exceptions
-/

namespace Verif.Vts

/-! ### A nontrivial text -/

/-- A comment, a sequent, a comment. -/
def sampleText : List Char :=
  "; (x)\n(sequent \"a\" (antecedent (<= (- x) 12.5) ) (succedent (!= (* x  y_1) -3.)))\n;".toList

/-- The sequent in it. -/
def sampleSequent : Sequent :=
  ⟨['a'], [⟨.le, .neg (.var ['x']), .dec (25 / 2)⟩], [⟨.ne, .mul (.var ['x']) (.var "y_1".toList), .int (-3)⟩]⟩

theorem ws_of_all {w : List Char} (h : w.all isWs = true) : Ws w := fun c hc => isWs_iff.1 (List.all_eq_true.1 h c hc)

theorem sample_text : FileText sampleText [sampleSequent] := by
  have dg : ∀ ds : List Char, ds ≠ [] → ds.all isNum = true → Digits ds := fun ds h h' =>
    ⟨h, fun c hc => isNum_iff.1 (List.all_eq_true.1 h' c hc)⟩
  have sp : Ws [' '] := ws_of_all rfl
  have x : TermText ['x'] (.var ['x']) := .var _ ⟨'x', [], rfl, isVar1_iff.1 rfl, by simp⟩
  have y : TermText "y_1".toList (.var "y_1".toList) := .var _ ⟨'y', ['_', '1'], rfl, isVar1_iff.1 rfl, by
    intro d hd
    rw [← isVar_iff]
    simp only [List.mem_cons, List.not_mem_nil, or_false] at hd
    rcases hd with rfl | rfl <;> rfl⟩
  have nx := TermText.neg [] [' '] [] _ _ nil_ws sp nil_ws x
  have n1 := TermText.dec "12".toList "5".toList (dg _ (by decide) rfl) (dg _ (by decide) rfl)
  have n2 := TermText.nint "3".toList true (dg _ (by decide) rfl)
  have xy := TermText.mul [] [' '] [' ', ' '] [] _ _ _ _ nil_ws sp (ws_of_all rfl) nil_ws (by decide) x y
  have r1 := RelText.mk [] [' '] [' '] [] _ _ .le _ _ nil_ws sp sp nil_ws (by decide) (by decide) nx n1
  have r2 := RelText.mk [] [' '] [' '] [] _ _ .ne _ _ nil_ws sp sp nil_ws (by decide) (by decide) xy n2
  have l1 := RelsText.cons [' '] _ _ _ _ sp r1 (.nil [' '] sp)
  have l2 := RelsText.cons [' '] _ _ _ _ sp r2 (.nil [] nil_ws)
  have q := SequentText.mk [] [' '] [' '] [] [' '] [] [] ['a'] _ _ _ _ nil_ws sp sp nil_ws sp nil_ws nil_ws (by decide) l1 l2
  have junk : ∀ j : List Char, 's' ∉ j → Junk j := by
    intro j hj a w t
    left
    rintro rfl
    exact hj (by simp)
  have f := FileText.cons "; (x)\n".toList _ _ _ _ (junk _ (by decide)) q (.nil "\n;".toList (junk _ (by decide)))
  have e1 : (decimal "12".toList : ℚ) + decimal "5".toList / 10 ^ "5".toList.length = 25 / 2 := by decide +kernel
  have e2 : (-(decimal "3".toList) : ℤ) = -3 := by decide +kernel
  rw [e1, e2] at f
  exact f

example : ∃ st, parseFile ⟨[], 0⟩ sampleText = .ok (st, [sampleSequent]) :=
  C48_reading _ _ sample_text (by
    intro q hq s hs
    rw [List.mem_singleton.1 hq] at hs
    have : s ∈ [['x'], ['x'], "y_1".toList] := hs
    simp only [List.mem_cons, List.not_mem_nil, or_false] at this
    rcases this with rfl | rfl | rfl <;> decide)

example : ∃ st, parseFiles ⟨[], 0⟩ [("f".toList, sampleText), ("g".toList, [])] [] =
    .ok (st, [("f".toList, [sampleSequent]), ("g".toList, [])]) :=
  C48_files _ [[sampleSequent], []] (by decide) (.cons ⟨sample_text, by
    intro q hq s hs
    rw [List.mem_singleton.1 hq] at hs
    have : s ∈ [['x'], ['x'], "y_1".toList] := hs
    simp only [List.mem_cons, List.not_mem_nil, or_false] at this
    rcases this with rfl | rfl | rfl <;> decide⟩ (.cons ⟨.nil [] (by intro a w t; left; simp), by simp⟩ .nil))

/-! ### C63 -/

/-- C63 is violated: sequents that cannot be read are left out, without an exception: of three sequents the second, which
has a power in it, is missing. -/
theorem C63_violated :
    (parseFile ⟨[], 0⟩ ("(sequent \"a\" (antecedent) (succedent (< x 0))) ".toList ++
      "(sequent \"b\" (antecedent) (succedent (< (^ x 2) 0))) ".toList ++
      "(sequent \"c\" (antecedent) (succedent (< x 1)))".toList)).toOption.map Prod.snd =
    some [⟨['a'], [], [⟨.lt, .var ['x'], .int 0⟩]⟩, ⟨['c'], [], [⟨.lt, .var ['x'], .int 1⟩]⟩] := by
  decide +kernel

/-! ### C64 -/

/-- C64, exact work: reading the text of a term handles `Tm.work` numbers and names. -/
theorem C64_work (s : List Char) (t : Tm) (h : TermText s t) (hn : Plain t.names) (n : ℕ) (hl : s.length ≤ n)
    (rest : List Char) : term n ⟨[], 0⟩ (s ++ ')' :: rest) = .ok (⟨[], t.work⟩, some (t, ')' :: rest)) := by
  have := term_text h hn n hl ⟨[], 0⟩ [] (')' :: rest) rfl nil_ws (stop_rpar nil_ws)
  simpa using this

/-- `(-(-( … x)))` -/
def minuses : ℕ → List Char
  | 0 => ['x']
  | n + 1 => '(' :: '-' :: (minuses n ++ [')'])

def minusTerm : ℕ → Tm
  | 0 => .var ['x']
  | n + 1 => .neg (minusTerm n)

theorem minuses_text (n : ℕ) : TermText (minuses n) (minusTerm n) := by
  induction n with
  | zero => exact .var _ ⟨'x', [], rfl, isVar1_iff.1 rfl, by simp⟩
  | succ n ih => exact .neg [] [] [] _ _ nil_ws nil_ws nil_ws ih

theorem minuses_length (n : ℕ) : (minuses n).length = 3 * n + 1 := by
  induction n with
  | zero => rfl
  | succ n ih => rw [minuses]; simp [ih]; ring

theorem minuses_work (n : ℕ) : (minusTerm n).work = 2 ^ n := by
  induction n with
  | zero => rfl
  | succ n ih => rw [minusTerm, Tm.work, ih, pow_succ]; ring

theorem minuses_plain (n : ℕ) : Plain (minusTerm n).names := by
  induction n with
  | zero =>
    intro s hs
    rw [List.mem_singleton.1 (show s ∈ [['x']] from hs)]
    decide
  | succ n ih => exact ih

/-- C64 is violated: the work is not bounded by a polynomial in the length of the text. -/
theorem C64_violated (c d : ℕ) : ∃ s t, TermText s t ∧ Plain t.names ∧
    ∀ n, s.length ≤ n → ∃ k, term n ⟨[], 0⟩ (s ++ [')']) = .ok (⟨[], k⟩, some (t, [')'])) ∧ c * s.length ^ d + c < k := by
  have h := tendsto_pow_const_div_const_pow_of_one_lt d (r := (2 : ℝ)) (by norm_num)
  have h0 : (0 : ℝ) < 1 / ((c + 1 : ℕ) * 4 ^ d * 2 : ℝ) := by positivity
  obtain ⟨n, hn1, hn⟩ := ((h.eventually (gt_mem_nhds h0)).and (Filter.eventually_ge_atTop 1)).exists
  refine ⟨minuses n, minusTerm n, minuses_text n, minuses_plain n, fun m hm =>
    ⟨_, C64_work _ _ (minuses_text n) (minuses_plain n) m hm [], ?_⟩⟩
  rw [minuses_work, minuses_length]
  have hpos : (0 : ℝ) < 2 ^ n := by positivity
  rw [div_lt_iff₀ hpos, div_mul_eq_mul_div, lt_div_iff₀ (by positivity), one_mul] at hn1
  have h1 : ((3 * n + 1 : ℕ) : ℝ) ^ d ≤ (n : ℝ) ^ d * 4 ^ d := by
    rw [← mul_pow]
    apply pow_le_pow_left₀ (by positivity)
    have : (1 : ℝ) ≤ n := by exact_mod_cast hn
    push_cast
    linarith
  have h2 : (1 : ℝ) ≤ (n : ℝ) ^ d * 4 ^ d := by
    have a1 : (1 : ℝ) ≤ (n : ℝ) ^ d := one_le_pow₀ (by exact_mod_cast hn)
    have a2 : (1 : ℝ) ≤ (4 : ℝ) ^ d := one_le_pow₀ (by norm_num)
    nlinarith
  have h3 : (c * (3 * n + 1) ^ d + c : ℝ) < 2 ^ n := by
    have hc : (0 : ℝ) ≤ c := by positivity
    push_cast at h1 hn1
    have e1 := mul_le_mul_of_nonneg_left h1 hc
    have e2 := mul_le_mul_of_nonneg_left h2 hc
    nlinarith
  exact_mod_cast h3

/-- No unary minus in the term. -/
def Tm.NoNeg : Tm → Prop
  | .int _ | .dec _ | .var _ => True
  | .add a b | .mul a b | .sub a b | .div a b => a.NoNeg ∧ b.NoNeg
  | .neg _ => False

/-- C64, what holds: for terms without unary minus every number and name is handled once; their number is bounded by the
length of the text. Missing: terms with unary minus. -/
theorem C64_partial (s : List Char) (t : Tm) (h : TermText s t) (hneg : t.NoNeg) : t.work ≤ s.length := by
  induction h with
  | int ds dot h => exact (List.length_pos_iff.2 h.1).trans_le (by simp)
  | nint ds dot h => simp [Tm.work]
  | dec ds es h h' => simp [Tm.work]; omega
  | ndec ds es h h' => simp [Tm.work]
  | var s h => obtain ⟨c, r, rfl, _⟩ := h; simp [Tm.work]
  | neg => exact hneg.elim
  | add _ _ _ _ _ _ _ _ _ _ _ _ _ _ _ iha ihb =>
    have := iha hneg.1; have := ihb hneg.2; simp [Tm.work]; omega
  | mul _ _ _ _ _ _ _ _ _ _ _ _ _ _ _ iha ihb =>
    have := iha hneg.1; have := ihb hneg.2; simp [Tm.work]; omega
  | sub _ _ _ _ _ _ _ _ _ _ _ _ _ _ _ iha ihb =>
    have := iha hneg.1; have := ihb hneg.2; simp [Tm.work]; omega
  | div _ _ _ _ _ _ _ _ _ _ _ _ _ _ _ iha ihb =>
    have := iha hneg.1; have := ihb hneg.2; simp [Tm.work]; omega

example : TermText ['x'] (.var ['x']) ∧ (Tm.var ['x']).NoNeg ∧ Plain (Tm.var ['x']).names :=
  ⟨minuses_text 0, trivial, minuses_plain 0⟩

/-! ### C65 -/

/-- The exception of a result. -/
def exceptionOf {α : Type} : Except Err α → Option Err
  | .error e => some e
  | .ok _ => none

theorem exceptionOf_eq {α : Type} {x : Except Err α} {e : Err} (h : exceptionOf x = some e) : x = .error e := by
  cases x with
  | error e' => cases h; rfl
  | ok a => cases h

/-- C65 is violated: a sequent with a variable named `sympy` makes the reader raise, also when the sequent itself is well
formed; and after a variable named `cmd` the next file cannot be read. -/
theorem C65_violated :
    parseFile ⟨[], 0⟩ "(sequent \"a\" (antecedent) (succedent (< sympy 0)))".toList = .error .typeError ∧
    parseFiles ⟨[], 0⟩ [("f".toList, "(sequent \"a\" (antecedent) (succedent (< cmd 0)))".toList),
        ("g".toList, [])] [] = .error .typeError :=
  ⟨exceptionOf_eq (by decide +kernel), exceptionOf_eq (by decide +kernel)⟩

/-- The text contains none of the two names. -/
def NoGlobals (i : List Char) : Prop := ∀ g ∈ moduleGlobals, ¬ g <:+: i

theorem NoGlobals.suffix {u r : List Char} (h : NoGlobals (u ++ r)) : NoGlobals r := fun g hg hi =>
  h g hg (hi.trans (List.suffix_append u r).isInfix)

/-- The parser neither raises nor shadows anything on this text; a match uses at least `d` characters. -/
def Safe {α : Type} (p : Parser α) (i : List Char) (d : ℕ) : Prop := ∀ st : PSt, st.shadowed = [] →
  ∃ st' o, p st i = .ok (st', o) ∧ st'.shadowed = [] ∧ ∀ a r, o = some (a, r) → ∃ u, i = u ++ r ∧ d ≤ u.length

section
variable {α β : Type}

theorem safe_pure (a : α) (i : List Char) : Safe (pure a) i 0 := fun st h =>
  ⟨st, some (a, i), rfl, h, fun _ _ e => by cases e; exact ⟨[], rfl, le_rfl⟩⟩

theorem safe_bind {p : Parser α} {f : α → Parser β} {i : List Char} {d d' : ℕ} (hp : Safe p i d)
    (hf : ∀ a u r, i = u ++ r → d ≤ u.length → Safe (f a) r d') : Safe (p >>= f) i (d + d') := by
  intro st hst
  obtain ⟨st', o, e, hst', ho⟩ := hp st hst
  cases o with
  | none => exact ⟨st', none, bind_none e, hst', fun _ _ h => by cases h⟩
  | some x =>
    obtain ⟨a, r⟩ := x
    obtain ⟨u, hu, hd⟩ := ho a r rfl
    obtain ⟨st'', o, e', hst'', ho'⟩ := hf a u r hu hd st' hst'
    refine ⟨st'', o, (bind_some e).trans e', hst'', ?_⟩
    intro b r' h
    obtain ⟨u', hu', hd'⟩ := ho' b r' h
    exact ⟨u ++ u', by rw [hu, hu', List.append_assoc], by rw [List.length_append]; omega⟩

theorem safe_alt {p q : Parser α} {i : List Char} {d : ℕ} (hp : Safe p i d) (hq : Safe q i d) : Safe (p.alt q) i d := by
  intro st hst
  obtain ⟨st', o, e, hst', ho⟩ := hp st hst
  cases o with
  | none =>
    obtain ⟨st'', o, e', hst'', ho'⟩ := hq st' hst'
    exact ⟨st'', o, by rw [alt_none e, e'], hst'', ho'⟩
  | some x => exact ⟨st', some x, alt_some e, hst', ho⟩

theorem safe_tok {f : List Char → Option (α × List Char)} {i : List Char} {d : ℕ}
    (h : ∀ a r, f i = some (a, r) → ∃ u, i = u ++ r ∧ d ≤ u.length) : Safe (tok f) i d := fun st hst =>
  ⟨st, f i, rfl, hst, h⟩

theorem safe_mono {p : Parser α} {i : List Char} {d d' : ℕ} (h : Safe p i d) (hd : d' ≤ d) : Safe p i d' := by
  intro st hst
  obtain ⟨st', o, e, hst', ho⟩ := h st hst
  exact ⟨st', o, e, hst', fun a r hr => by
    obtain ⟨u, hu, hd'⟩ := ho a r hr
    exact ⟨u, hu, hd.trans hd'⟩⟩

theorem safe_useSympy (b : Bool) (i : List Char) : Safe (useSympy b) i 0 := fun st hst =>
  ⟨_, _, useSympy_ok hst, rfl, fun _ _ h => by cases h; exact ⟨[], rfl, le_rfl⟩⟩

end

theorem skip_split (i : List Char) : ∃ w, i = w ++ skipWs i := by
  obtain ⟨w, _, h⟩ := ws_split i
  exact ⟨w, h⟩

theorem safe_lit (s i : List Char) : Safe (lit s) i s.length := by
  apply safe_tok
  intro a r h
  split at h
  · rename_i hp
    simp only [Option.some.injEq, Prod.mk.injEq] at h
    obtain ⟨w, hw⟩ := skip_split i
    obtain ⟨t, ht⟩ := List.isPrefixOf_iff_prefix.1 hp
    refine ⟨w ++ s, ?_, by simp⟩
    rw [← h.2, ← ht, List.drop_left, List.append_assoc, ht]
    exact hw
  · cases h

theorem safe_kw (s i : List Char) : Safe (kw s) i 0 := by
  apply safe_tok
  intro a r h
  split at h
  · rename_i hp
    obtain ⟨w, hw⟩ := skip_split i
    obtain ⟨t, ht⟩ := List.isPrefixOf_iff_prefix.1 hp
    refine ⟨w ++ s, ?_, Nat.zero_le _⟩
    rw [← ht, List.drop_left] at h
    have hr : r = t := by
      split at h
      · cases h; rfl
      · split at h
        · cases h
        · cases h; rfl
    rw [hr, List.append_assoc, ht]
    exact hw
  · cases h

theorem digits1_split {i ds r : List Char} (h : digits1 i = some (ds, r)) : i = ds ++ r := by
  unfold digits1 at h
  split at h
  · cases h
  · split at h
    · cases h
      rw [List.cons_append, List.takeWhile_append_dropWhile]
    · cases h

theorem optNeg_split (i : List Char) : ∃ u, i = u ++ (optNeg i).2 := by
  obtain ⟨w, hw⟩ := skip_split i
  unfold optNeg
  split
  · rename_i r h
    exact ⟨w ++ ['-'], by rw [List.append_assoc]; show i = w ++ '-' :: r; rw [← h]; exact hw⟩
  · exact ⟨w, hw⟩

theorem safe_realP (i : List Char) : Safe realP i 0 := by
  unfold realP
  refine safe_bind (d := 0) (d' := 0) ?_ fun t u r hu _ => safe_bind (d := 0) (d' := 0) (safe_useSympy _ _) fun _ _ _ _ _ => safe_pure _ _
  apply safe_tok
  intro a r h
  obtain ⟨u, hu⟩ := optNeg_split i
  unfold realTok at h
  split at h
  · rename_i ds r1 h1
    split at h
    · rename_i es r2 h2
      cases h
      refine ⟨u ++ (ds ++ '.' :: es), ?_, Nat.zero_le _⟩
      rw [digits1_split h1, digits1_split h2] at hu
      simpa using hu
    · cases h
  · cases h

theorem optDot_split (i : List Char) : ∃ u, i = u ++ optDot i := by
  obtain ⟨w, hw⟩ := skip_split i
  unfold optDot
  split
  · rename_i r h
    exact ⟨w ++ ['.'], by rw [List.append_assoc]; show i = w ++ '.' :: r; rw [← h]; exact hw⟩
  · exact ⟨[], rfl⟩

theorem safe_intP (i : List Char) : Safe intP i 0 := by
  unfold intP
  refine safe_bind (d := 0) (d' := 0) ?_ fun t u r hu _ => safe_bind (d := 0) (d' := 0) (safe_useSympy _ _) fun _ _ _ _ _ => safe_pure _ _
  apply safe_tok
  intro a r h
  obtain ⟨u, hu⟩ := optNeg_split i
  unfold intTok at h
  split at h
  · rename_i ds r1 h1
    cases h
    obtain ⟨w, hw⟩ := skip_split (optNeg i).2
    obtain ⟨v, hv⟩ := optDot_split r1
    refine ⟨u ++ (w ++ (ds ++ v)), ?_, Nat.zero_le _⟩
    rw [hw, digits1_split h1] at hu
    simp only [List.append_assoc, ← hv]
    exact hu
  · cases h

theorem varTok_split {i s r : List Char} (h : varTok i = some (s, r)) : ∃ u, i = u ++ (s ++ r) := by
  obtain ⟨w, hw⟩ := skip_split i
  unfold varTok at h
  split at h
  · cases h
  · rename_i c t hc
    split at h
    · cases h
      refine ⟨w, ?_⟩
      rw [List.cons_append, List.takeWhile_append_dropWhile, ← hc]
      exact hw
    · cases h

theorem safe_varP {i : List Char} (hi : NoGlobals i) : Safe varP i 0 := by
  intro st hst
  unfold varP
  cases h : varTok i with
  | none => exact ⟨st, none, bind_none (tok_none h), hst, fun _ _ h => by cases h⟩
  | some x =>
    obtain ⟨s, r⟩ := x
    obtain ⟨u, hu⟩ := varTok_split h
    have hs : s ∉ moduleGlobals := fun hg => hi s hg ⟨u, r, by rw [hu, List.append_assoc]⟩
    refine ⟨⟨[], st.acts + 1⟩, some (.var s, r), ?_, rfl, fun _ _ h => by
      cases h; exact ⟨u ++ s, by rw [hu, List.append_assoc], Nat.zero_le _⟩⟩
    rw [bind_some (tok_some h), bind_some (useSympy_ok hst),
      bind_some (st' := ⟨[], st.acts + 1⟩) (a := ()) (r := r) (by unfold sympyVar; rw [if_neg hs]; rfl)]
    rfl

theorem safe_term : ∀ (n : ℕ) (i : List Char), i.length < n → NoGlobals i → Safe (term n) i 0 := by
  intro n
  induction n with
  | zero => intro i hi; omega
  | succ n ih =>
    intro i hi hg
    have hfn2 : ∀ (op : Char) (mk : Tm → Tm → Tm), Safe (fn2 op mk (term n)) i 0 := by
      intro op mk
      unfold fn2
      refine safe_mono (safe_bind (safe_lit _ _) fun _ u r hu hd => safe_bind (safe_lit _ _) fun _ u1 r1 hu1 _ =>
        safe_bind (d := 0) (ih r1 ?_ ?_) fun _ u2 r2 hu2 _ => safe_bind (d := 0) (ih r2 ?_ ?_) fun _ u3 r3 hu3 _ =>
        safe_bind (safe_lit _ _) fun _ _ _ _ _ => safe_pure _ _) (Nat.zero_le _)
      · subst hu hu1; simp at hi hd; omega
      · subst hu hu1; exact hg.suffix.suffix
      · subst hu hu1 hu2; simp at hi hd; omega
      · subst hu hu1 hu2; exact hg.suffix.suffix.suffix
    unfold term
    refine safe_alt (safe_alt (safe_alt (safe_realP i) (safe_intP i)) (safe_varP hg)) (safe_alt (hfn2 _ _) (safe_alt (hfn2 _ _)
      (safe_alt (hfn2 _ _) (safe_alt (hfn2 _ _) ?_))))
    unfold fnNeg
    refine safe_mono (safe_bind (safe_lit _ _) fun _ u r hu hd => safe_bind (safe_lit _ _) fun _ u1 r1 hu1 _ =>
      safe_bind (d := 0) (ih r1 ?_ ?_) fun _ u2 r2 hu2 _ =>
      safe_bind (safe_lit _ _) fun _ _ _ _ _ => safe_pure _ _) (Nat.zero_le _)
    · subst hu hu1; simp at hi hd; omega
    · subst hu hu1; exact hg.suffix.suffix

theorem safe_rln (k : List Char) (kind : RelKind) (n : ℕ) (i : List Char) (hi : i.length < n) (hg : NoGlobals i) :
    Safe (rln k kind n) i 1 := by
  unfold rln
  refine safe_mono (safe_bind (safe_lit _ _) fun _ u r hu hd => safe_bind (d := 0) (safe_kw _ _) fun _ u1 r1 hu1 _ =>
    safe_bind (d := 0) (safe_term n r1 ?_ ?_) fun _ u2 r2 hu2 _ => safe_bind (d := 0) (safe_term n r2 ?_ ?_) fun _ u3 r3 hu3 _ =>
    safe_bind (safe_lit _ _) fun _ _ _ _ _ => safe_bind (d := 0) (safe_useSympy _ _) fun _ _ _ _ _ => safe_pure _ _) ?_
  · subst hu hu1; simp at hi hd; omega
  · subst hu hu1; exact hg.suffix.suffix
  · subst hu hu1 hu2; simp at hi hd; omega
  · subst hu hu1 hu2; exact hg.suffix.suffix.suffix
  · simp

theorem safe_fml (n : ℕ) (i : List Char) (hi : i.length < n) (hg : NoGlobals i) : Safe (fml n) i 1 := by
  unfold fml
  exact safe_alt (safe_rln _ _ n i hi hg) (safe_alt (safe_rln _ _ n i hi hg) (safe_alt (safe_rln _ _ n i hi hg)
    (safe_alt (safe_rln _ _ n i hi hg) (safe_alt (safe_rln _ _ n i hi hg) (safe_rln _ _ n i hi hg)))))

theorem safe_many (n : ℕ) : ∀ (m : ℕ) (i : List Char), i.length < m → i.length < n → NoGlobals i →
    Safe (many (fml n) m) i 0 := by
  intro m
  induction m with
  | zero => intro i hi; omega
  | succ m ih =>
    intro i hm hn hg st hst
    obtain ⟨st', o, e, hst', ho⟩ := safe_fml n i hn hg st hst
    unfold many
    rw [e]
    cases o with
    | none => exact ⟨st', some ([], i), rfl, hst', fun _ _ h => by cases h; exact ⟨[], rfl, le_rfl⟩⟩
    | some x =>
      obtain ⟨a, r⟩ := x
      obtain ⟨u, hu, hd⟩ := ho a r rfl
      have hr : Safe (do let l ← many (fml n) m; return a :: l : Parser (List (Rel Tm))) r (0 + 0) :=
        safe_bind (ih r (by subst hu; simp at hm; omega) (by subst hu; simp at hn; omega) (by subst hu; exact hg.suffix))
          fun _ _ _ _ _ => safe_pure _ _
      obtain ⟨st'', o, e', hst'', ho'⟩ := hr st' hst'
      refine ⟨st'', o, e', hst'', ?_⟩
      intro b r' h
      obtain ⟨u', hu', _⟩ := ho' b r' h
      exact ⟨u ++ u', by rw [hu, hu', List.append_assoc], Nat.zero_le _⟩

theorem safe_side (s : List Char) (n : ℕ) (i : List Char) (hi : i.length < n) (hg : NoGlobals i) : Safe (side s n) i 0 := by
  unfold side
  refine safe_mono (safe_bind (safe_lit _ _) fun _ u r hu hd => safe_bind (safe_lit _ _) fun _ u1 r1 hu1 _ =>
    safe_bind (d := 0) (safe_many n n r1 ?_ ?_ ?_) fun _ u2 r2 hu2 _ =>
    safe_bind (safe_lit _ _) fun _ _ _ _ _ => safe_pure _ _) (Nat.zero_le _)
  · subst hu hu1; simp at hi hd; omega
  · subst hu hu1; simp at hi hd; omega
  · subst hu hu1; exact hg.suffix.suffix

theorem safe_quoted (i : List Char) : Safe quoted i 0 := by
  apply safe_tok
  intro a r h
  obtain ⟨w, hw⟩ := skip_split i
  split at h
  · rename_i t ht
    split at h
    · cases h
    · rename_i c r' hr'
      cases h
      refine ⟨w ++ ('"' :: (t.takeWhile (fun c => c != '"') ++ [c])), ?_, Nat.zero_le _⟩
      have := List.takeWhile_append_dropWhile (p := fun c => c != '"') (l := t)
      rw [hr'] at this
      rw [ht] at hw
      simp only [List.append_assoc, List.cons_append, List.nil_append]
      rw [this]
      exact hw
  · cases h

theorem safe_cmd (n : ℕ) (i : List Char) (hi : i.length < n) (hg : NoGlobals i) : Safe (cmd n) i 1 := by
  unfold cmd
  refine safe_mono (safe_bind (safe_lit _ _) fun _ u r hu hd => safe_bind (safe_lit _ _) fun _ u1 r1 hu1 _ =>
    safe_bind (d := 0) (safe_quoted _) fun _ u2 r2 hu2 _ => safe_bind (d := 0) (safe_side _ n r2 ?_ ?_) fun _ u3 r3 hu3 _ =>
    safe_bind (d := 0) (safe_side _ n r3 ?_ ?_) fun _ u4 r4 hu4 _ =>
    safe_bind (safe_lit _ _) fun _ _ _ _ _ => safe_pure _ _) ?_
  · subst hu hu1 hu2; simp at hi hd; omega
  · subst hu hu1 hu2; exact hg.suffix.suffix.suffix
  · subst hu hu1 hu2 hu3; simp at hi hd; omega
  · subst hu hu1 hu2 hu3; exact hg.suffix.suffix.suffix.suffix
  · simp

theorem scan_safe (n : ℕ) : ∀ (k : ℕ) (i : List Char), i.length < k → i.length < n → NoGlobals i → ∀ st : PSt,
    st.shadowed = [] → ∃ st' l, scan n k st i = .ok (st', l) ∧ st'.shadowed = [] := by
  intro k
  induction k with
  | zero => intro i hi; omega
  | succ k ih =>
    intro i hk hn hg st hst
    obtain ⟨w, hw⟩ := skip_split i
    have hlen : i.length = w.length + (skipWs i).length := by
      have := congrArg List.length hw
      simpa using this
    have hg' : NoGlobals (skipWs i) := by rw [hw] at hg; exact hg.suffix
    obtain ⟨st', o, e, hst', ho⟩ := safe_cmd n (skipWs i) (by omega) hg' st hst
    rw [scan, e]
    cases o with
    | none =>
      simp only
      cases hs : skipWs i with
      | nil => exact ⟨st', [], rfl, hst'⟩
      | cons c r =>
        rw [hs] at hlen hg'
        simp at hlen
        exact ih r (by omega) (by omega) (NoGlobals.suffix (u := [c]) hg') st' hst'
    | some x =>
      obtain ⟨q, r⟩ := x
      obtain ⟨u, hu, hd⟩ := ho q r rfl
      rw [hu] at hlen hg'
      simp at hlen
      obtain ⟨st'', l, e', hst''⟩ := ih r (by omega) (by omega) hg'.suffix st' hst'
      simp only
      rw [e']
      exact ⟨st'', q :: l, rfl, hst''⟩

/-- C65, what holds: reading any files whatsoever ends without an exception, unless `sympy` or `cmd` occurs in a text.
Missing: texts in which they occur. -/
theorem C65_partial (files : List (List Char × List Char)) (h : ∀ f ∈ files, NoGlobals f.2) :
    ∃ st ret, parseFiles ⟨[], 0⟩ files [] = .ok (st, ret) := by
  have key : ∀ (files : List (List Char × List Char)) (st : PSt) (ret : List (List Char × List Sequent)),
      st.shadowed = [] → (∀ f ∈ files, NoGlobals f.2) → ∃ st' ret', parseFiles st files ret = .ok (st', ret') := by
    intro files
    induction files with
    | nil => intro st ret _ _; exact ⟨st, ret, rfl⟩
    | cons f files ih =>
      intro st ret hst h
      obtain ⟨name, text⟩ := f
      obtain ⟨st', l, e, hst'⟩ := scan_safe (text.length + 1) (text.length + 1) text (by omega) (by omega)
        (h (name, text) (by simp)) st hst
      have : parseFile st text = .ok (st', l) := by
        unfold parseFile
        rw [if_neg (by simp [hst]), e]
      rw [parseFiles, this]
      exact ih st' _ hst' fun f hf => h f (by simp [hf])
  exact key files ⟨[], 0⟩ [] rfl h

example : ∀ f ∈ [("f".toList, sampleText), ("g".toList, "(sequent (".toList)], NoGlobals f.2 := by
  unfold NoGlobals
  decide +kernel

end Verif.Vts
