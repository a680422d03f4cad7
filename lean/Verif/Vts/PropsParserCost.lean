import Verif.Vts.PropsParserExact
import Mathlib.Tactic.Ring
import Mathlib.Tactic.Linarith

/-!
# C64: the work of reading a file is bounded by its length and the nesting of its brackets
-/

set_option linter.unusedSectionVars false

namespace Verif.Vts

/-- No part of the text opens more than `d` brackets that it does not close. -/
def Nested (d : ℕ) (text : List Char) : Prop :=
  ∀ a b c, text = a ++ (b ++ c) → b.count '(' ≤ b.count ')' + d

/-! ### The nesting of brackets -/

/-- The largest number of open brackets of a beginning of the text. -/
def opened : List Char → ℕ
  | [] => 0
  | c :: i => if c = '(' then opened i + 1 else if c = ')' then opened i - 1 else opened i

theorem opened_le {d : ℕ} {i : List Char} (h : ∀ b c, i = b ++ c → b.count '(' ≤ b.count ')' + d) : opened i ≤ d := by
  induction i generalizing d with
  | nil => exact Nat.zero_le _
  | cons x i ih =>
    unfold opened
    split
    · next hx =>
      subst hx
      have h1 := h ['('] i rfl
      have hd : 1 ≤ d := by simpa using h1
      have := @ih (d - 1) (fun b c e => by
        have h2 := h ('(' :: b) c (by rw [e]; rfl)
        simp at h2
        omega)
      omega
    · split
      · next hx =>
        subst hx
        have := @ih (d + 1) (fun b c e => by
          have h2 := h (')' :: b) c (by rw [e]; rfl)
          simp at h2
          omega)
        omega
      · next hx hx' =>
        exact ih fun b c e => by
          have h2 := h (x :: b) c (by rw [e]; rfl)
          simpa [List.count_cons, hx, hx'] using h2

theorem Nested.suffix {d : ℕ} {text : List Char} (h : Nested d text) {a i : List Char} (e : text = a ++ i) :
    opened i ≤ d :=
  opened_le fun b c e' => h a b c (by rw [e, e'])

theorem count_le_opened (b c : List Char) : b.count '(' ≤ b.count ')' + opened (b ++ c) := by
  induction b with
  | nil => simp
  | cons x b ih =>
    rw [List.cons_append, opened]
    split
    · next hx =>
      subst hx
      simp
      omega
    · split
      · next hx =>
        subst hx
        simp
        omega
      · next hx hx' => simpa [List.count_cons, hx, hx'] using ih

theorem nested_of_tails {d : ℕ} {text : List Char} (h : ∀ i ∈ text.tails, opened i ≤ d) : Nested d text := by
  intro a b c e
  have h1 := h (b ++ c) (by rw [List.mem_tails, e]; exact List.suffix_append _ _)
  have h2 := count_le_opened b c
  omega

/-- No brackets. -/
def Flat (s : List Char) : Prop := '(' ∉ s ∧ ')' ∉ s

theorem opened_flat {w : List Char} (h : Flat w) (r : List Char) : opened (w ++ r) = opened r := by
  induction w with
  | nil => rfl
  | cons c w ih =>
    obtain ⟨h1, h2⟩ := h
    simp only [List.mem_cons, not_or] at h1 h2
    rw [List.cons_append, opened, if_neg (Ne.symm h1.1), if_neg (Ne.symm h2.1)]
    exact ih ⟨h1.2, h2.2⟩

theorem ws_flat {w : List Char} (h : Ws w) : Flat w := by
  constructor <;> intro hc <;> have := h _ hc <;> revert this <;> decide

theorem digits_flat {w : List Char} (h : Digits w) : Flat w := by
  constructor <;> intro hc <;> have := h.2 _ hc <;> revert this <;> decide

theorem name_flat {w : List Char} (h : Name w) : Flat w := by
  obtain ⟨c, r, rfl, hc, hr⟩ := h
  constructor <;> intro hm <;> rcases List.mem_cons.1 hm with rfl | hm
  · revert hc; unfold Letter; decide
  · have := hr _ hm; revert this; unfold Letter; decide
  · revert hc; unfold Letter; decide
  · have := hr _ hm; revert this; unfold Letter; decide

theorem Flat.append {a b : List Char} (ha : Flat a) (hb : Flat b) : Flat (a ++ b) := by
  unfold Flat at *
  simp only [List.mem_append]
  tauto

/-- Every bracket is closed. -/
def Bal (s : List Char) : Prop := ∀ r, opened (s ++ r) = max (opened s) (opened r)

theorem Flat.bal {s : List Char} (h : Flat s) : Bal s := by
  intro r
  have := opened_flat h []
  rw [List.append_nil] at this
  rw [opened_flat h, this]
  exact (Nat.zero_max _).symm

theorem Bal.append {a b : List Char} (ha : Bal a) (hb : Bal b) : Bal (a ++ b) := by
  intro r
  rw [List.append_assoc, ha, hb, ha b, max_assoc]

theorem opened_open (s : List Char) : opened ('(' :: s) = opened s + 1 := by
  conv_lhs => unfold opened
  simp

theorem opened_close (s : List Char) : opened (')' :: s) = opened s - 1 := by
  conv_lhs => unfold opened
  simp

theorem opened_other {c : Char} (h : c ≠ '(') (h' : c ≠ ')') (s : List Char) : opened (c :: s) = opened s := by
  conv_lhs => unfold opened
  simp [h, h']

theorem Bal.bracket {s : List Char} (h : Bal s) : Bal ('(' :: (s ++ [')'])) := by
  intro r
  rw [List.cons_append, List.append_assoc, opened_open, opened_open, h, h, List.singleton_append, opened_close,
    opened_close]
  simp only [opened]
  omega

theorem opened_bracket {s : List Char} (h : Bal s) : opened ('(' :: (s ++ [')'])) = opened s + 1 := by
  rw [opened_open, h, opened_close]
  simp [opened]

theorem sym_flat (o : BinOp) : Flat [o.sym] := by cases o <;> (unfold Flat; decide)

theorem written_bal {s : List Char} {t : Tm} (h : TermWritten s t) : Bal s := by
  induction h with
  | int neg dot w v ds hw hv h =>
    apply Flat.bal
    refine Flat.append ?_ ((digits_flat h).append ?_)
    · split
      · have := ws_flat hw
        exact Flat.append (a := ['-']) (by unfold Flat; decide) this
      · unfold Flat; decide
    · split
      · exact (ws_flat hv).append (by unfold Flat; decide)
      · unfold Flat; decide
  | dec neg ds es h h' =>
    apply Flat.bal
    refine Flat.append ?_ ((digits_flat h).append (Flat.append (a := ['.']) (by unfold Flat; decide) (digits_flat h')))
    split <;> (unfold Flat; decide)
  | var s h => exact (name_flat h).bal
  | bin o w₁ w₂ w₃ w₄ a b ta tb h₁ h₂ h₃ h₄ ha hb iha ihb =>
    have := ((ws_flat h₁).bal.append ((sym_flat o).bal.append ((ws_flat h₂).bal.append (iha.append
      ((ws_flat h₃).bal.append (ihb.append (ws_flat h₄).bal)))))).bracket
    simpa using this
  | neg w₁ w₂ w₄ a ta h₁ h₂ h₄ ha iha =>
    have := ((ws_flat h₁).bal.append ((sym_flat .sub).bal.append ((ws_flat h₂).bal.append (iha.append
      (ws_flat h₄).bal)))).bracket
    simpa [BinOp.sym] using this

theorem written_ne {s : List Char} {t : Tm} (h : TermWritten s t) : s ≠ [] := by
  cases h with
  | int neg dot w v ds hw hv h => have := h.1; simp [this]
  | dec neg ds es h h' => simp
  | var s h => obtain ⟨c, r, rfl, _⟩ := h; simp
  | bin => simp
  | neg => simp

theorem isTerm_bal {i r : List Char} {t : Tm} (h : IsTerm i t r) : ∃ p, p ≠ [] ∧ Bal p ∧ i = p ++ r := by
  obtain ⟨w, s, hw, e, hs⟩ := h
  refine ⟨w ++ s, ?_, (ws_flat hw).bal.append (written_bal hs), by rw [e, List.append_assoc]⟩
  have := written_ne hs
  simp [this]

/-! ### Outcomes -/

section
variable {α β : Type}

theorem bind_cases {p : Parser α} {f : α → Parser β} {st st' : PSt} {i : List Char} {x : Option (β × List Char)}
    (h : (p >>= f) st i = .ok (st', x)) :
    (p st i = .ok (st', none) ∧ x = none) ∨ ∃ s a r, p st i = .ok (s, some (a, r)) ∧ f a s r = .ok (st', x) := by
  simp only [bind] at h
  split at h
  · cases h
  · next h' => cases h; exact Or.inl ⟨h', rfl⟩
  · next s a r h' => exact Or.inr ⟨s, a, r, h', h⟩

theorem alt_cases {p q : Parser α} {st st' : PSt} {i : List Char} {x : Option (α × List Char)}
    (h : p.alt q st i = .ok (st', x)) :
    (p st i = .ok (st', x) ∧ x ≠ none) ∨ ∃ s, p st i = .ok (s, none) ∧ q s i = .ok (st', x) := by
  unfold Parser.alt at h
  split at h
  · cases h
  · next h' => cases h; exact Or.inl ⟨h', by simp⟩
  · next s h' => exact Or.inr ⟨s, h', h⟩

/-- What is read does not depend on the state. -/
def Det (p : Parser α) : Prop := ∀ st s st₁ s₁ i x x₁, p st i = .ok (s, x) → p st₁ i = .ok (s₁, x₁) → x = x₁

theorem det_tok (f : List Char → Option (α × List Char)) : Det (tok f) := by
  intro st s st₁ s₁ i x x₁ h h₁
  unfold tok at h h₁
  cases h
  cases h₁
  rfl

theorem det_pure (a : α) : Det (pure a : Parser α) := by
  intro st s st₁ s₁ i x x₁ h h₁
  cases h
  cases h₁
  rfl

theorem Det.bind {p : Parser α} {f : α → Parser β} (hp : Det p) (hf : ∀ a, Det (f a)) : Det (p >>= f) := by
  intro st s st₁ s₁ i x x₁ h h₁
  replace h := bind_cases h
  rcases h with ⟨h2, rfl⟩ | ⟨s2, a, r, h2, h3⟩ <;>
    rcases bind_cases h₁ with ⟨h4, rfl⟩ | ⟨s4, b, r', h4, h5⟩
  · rfl
  · cases hp _ _ _ _ _ _ _ h2 h4
  · cases hp _ _ _ _ _ _ _ h2 h4
  · cases hp _ _ _ _ _ _ _ h2 h4
    exact hf _ _ _ _ _ _ _ _ h3 h5

theorem Det.alt {p q : Parser α} (hp : Det p) (hq : Det q) : Det (p.alt q) := by
  intro st s st₁ s₁ i x x₁ h h₁
  replace h := alt_cases h
  rcases h with ⟨h2, hx⟩ | ⟨s2, h2, h3⟩ <;> rcases alt_cases h₁ with ⟨h4, hx'⟩ | ⟨s4, h4, h5⟩
  · exact hp _ _ _ _ _ _ _ h2 h4
  · exact absurd (hp _ _ _ _ _ _ _ h2 h4) hx
  · exact absurd (hp _ _ _ _ _ _ _ h2 h4).symm hx'
  · exact hq _ _ _ _ _ _ _ h3 h5

end

theorem det_useSympy (b : Bool) : Det (useSympy b) := by
  intro st s st₁ s₁ i x x₁ h h₁
  unfold useSympy at h h₁
  split at h
  · cases h
  · split at h₁
    · cases h₁
    · cases h
      cases h₁
      rfl

theorem det_sympyVar (b : List Char) : Det (sympyVar b) := by
  intro st s st₁ s₁ i x x₁ h h₁
  cases h
  cases h₁
  rfl

theorem det_term (n : ℕ) : Det (term n) := by
  induction n with
  | zero =>
    intro st s st₁ s₁ i x x₁ h h₁
    cases h
  | succ n ih =>
    have h2 : ∀ op mk, Det (fn2 op mk (term n)) := fun op mk =>
      (det_tok _).bind fun _ => (det_tok _).bind fun _ => ih.bind fun _ => ih.bind fun _ => (det_tok _).bind fun _ =>
        det_pure _
    have h1 : Det (fnNeg (term n)) :=
      (det_tok _).bind fun _ => (det_tok _).bind fun _ => ih.bind fun _ => (det_tok _).bind fun _ => det_pure _
    have hr : Det realP := (det_tok _).bind fun _ => (det_useSympy _).bind fun _ => det_pure _
    have hi : Det intP := (det_tok _).bind fun _ => (det_useSympy _).bind fun _ => det_pure _
    have hv : Det varP := (det_tok _).bind fun _ => (det_useSympy _).bind fun _ => (det_sympyVar _).bind fun _ =>
      det_pure _
    exact ((hr.alt hi).alt hv).alt ((h2 _ _).alt ((h2 _ _).alt ((h2 _ _).alt ((h2 _ _).alt h1))))

/-! ### Costs -/

/-- The bound for a text. -/
def cost (i : List Char) : ℕ := 2 ^ opened i * i.length

theorem cost_add {a b i : List Char} (ha : opened a ≤ opened i) (hb : opened b ≤ opened i)
    (hl : a.length + b.length ≤ i.length) : cost a + cost b ≤ cost i := by
  unfold cost
  calc 2 ^ opened a * a.length + 2 ^ opened b * b.length
      ≤ 2 ^ opened i * a.length + 2 ^ opened i * b.length :=
        Nat.add_le_add (Nat.mul_le_mul_right _ (Nat.pow_le_pow_right (by omega) ha))
          (Nat.mul_le_mul_right _ (Nat.pow_le_pow_right (by omega) hb))
    _ = 2 ^ opened i * (a.length + b.length) := by ring
    _ ≤ _ := Nat.mul_le_mul_left _ hl

theorem cost_mono {a i : List Char} (ha : opened a ≤ opened i) (hl : a.length ≤ i.length) : cost a ≤ cost i := by
  unfold cost
  exact Nat.mul_le_mul (Nat.pow_le_pow_right (by omega) ha) hl

theorem cost_double {a i : List Char} (ha : opened a + 1 ≤ opened i) (hl : a.length ≤ i.length) :
    2 * cost a ≤ cost i := by
  unfold cost
  calc 2 * (2 ^ opened a * a.length) = 2 ^ (opened a + 1) * a.length := by rw [pow_succ]; ring
    _ ≤ _ := Nat.mul_le_mul (Nat.pow_le_pow_right (by omega) ha) hl

theorem one_le_cost {p : List Char} (h : p ≠ []) : 1 ≤ cost p := by
  unfold cost
  have := List.length_pos_iff.2 h
  exact Nat.mul_pos (by positivity) this

/-- The work of a parser of terms that does not raise. -/
structure Cheap (T : Parser Tm) : Prop where
  inv : ∀ st st' i t r, T st i = .ok (st', some (t, r)) → IsTerm i t r
  det : Det T
  some : ∀ st st' p t r, T st (p ++ r) = .ok (st', some (t, r)) → st'.acts ≤ st.acts + cost p
  none : ∀ st st' i, T st i = .ok (st', none) → st'.acts ≤ st.acts + cost i
  close : ∀ st st' i j x, skipWs i = ')' :: j → T st i = .ok (st', x) → st'.acts = st.acts

theorem lit_cases {s : List Char} {st st' : PSt} {i : List Char} {x : Option (Unit × List Char)}
    (h : lit s st i = .ok (st', x)) : st' = st ∧ x =
      if s.isPrefixOf (skipWs i) then some ((), (skipWs i).drop s.length) else none := by
  unfold lit tok at h
  cases h
  exact ⟨rfl, rfl⟩

theorem kw_state {s : List Char} {st st' : PSt} {i : List Char} {x : Option (Unit × List Char)}
    (h : kw s st i = .ok (st', x)) : st' = st := by
  unfold kw tok at h
  cases h
  rfl

/-- The text after an opening bracket and a symbol. -/
def AfterOp (op : Char) (i j : List Char) : Prop := ∃ i₁, skipWs i = '(' :: i₁ ∧ skipWs i₁ = op :: j

theorem lit1_some {c : Char} {st st' : PSt} {i : List Char} {x : Unit × List Char}
    (h : lit [c] st i = .ok (st', some x)) : st' = st ∧ skipWs i = c :: x.2 := by
  replace h := lit_cases h
  refine ⟨h.1, ?_⟩
  replace h := h.2
  split at h
  · next hp =>
    cases h
    obtain ⟨t, ht⟩ := List.isPrefixOf_iff_prefix.1 hp
    rw [← ht]
    rfl
  · cases h

theorem lit_none {s : List Char} {st st' : PSt} {i : List Char} (h : lit s st i = .ok (st', none)) : st' = st :=
  (lit_cases h).1

theorem AfterOp.split {op : Char} {i j : List Char} (h : AfterOp op i j) :
    ∃ w w', Ws w ∧ Ws w' ∧ i = w ++ '(' :: (w' ++ op :: j) := by
  obtain ⟨i₁, h1, h2⟩ := h
  obtain ⟨w, hw, e⟩ := ws_split i
  obtain ⟨w', hw', e'⟩ := ws_split i₁
  refine ⟨w, w', hw, hw', ?_⟩
  rw [e, h1, e', h2]

theorem AfterOp.opened {op : Char} (ho : op ≠ '(' ∧ op ≠ ')') {i j : List Char} (h : AfterOp op i j) :
    opened i = opened j + 1 ∧ j.length ≤ i.length := by
  obtain ⟨w, w', hw, hw', e⟩ := h.split
  constructor
  · rw [e, opened_flat (ws_flat hw), opened_open, opened_flat (ws_flat hw'), opened_other ho.1 ho.2]
  · rw [e]
    simp
    omega

theorem AfterOp.unique {op op' : Char} {i j j' : List Char} (h : AfterOp op i j) (h' : AfterOp op' i j') :
    op = op' ∧ j = j' := by
  obtain ⟨i₁, h1, h2⟩ := h
  obtain ⟨i₂, h3, h4⟩ := h'
  rw [h1] at h3
  cases h3
  rw [h2] at h4
  cases h4
  exact ⟨rfl, rfl⟩

/-- The outcomes of `fn2`: nothing is read after the symbol, or its work is that of the terms after it. -/
theorem fn2_cases {op : Char} {mk : Tm → Tm → Tm} {T : Parser Tm} {st st' : PSt} {i : List Char}
    {x : Option (Tm × List Char)} (h : fn2 op mk T st i = .ok (st', x)) :
    (st' = st ∧ x = none ∧ ∀ j, ¬ AfterOp op i j) ∨ ∃ j, AfterOp op i j ∧
      ((T st j = .ok (st', none) ∧ x = none) ∨ ∃ s a r, T st j = .ok (s, some (a, r)) ∧
        ((T s r = .ok (st', none) ∧ x = none) ∨ ∃ b r', T s r = .ok (st', some (b, r')) ∧
          (x = none ∨ ∃ r'', skipWs r' = ')' :: r'' ∧ x = some (mk a b, r'')))) := by
  unfold fn2 at h
  replace h := bind_cases h
  rcases h with ⟨h0, rfl⟩ | ⟨s0, _, r0, h0, h⟩
  · refine Or.inl ⟨lit_none h0, rfl, fun j ⟨i₁, h1, h2⟩ => ?_⟩
    have := (lit_cases h0).2
    rw [h1] at this
    simp [List.isPrefixOf] at this
  obtain ⟨rfl, e0⟩ := lit1_some h0
  replace h := bind_cases h
  rcases h with ⟨h1, rfl⟩ | ⟨s1, _, r1, h1, h⟩
  · refine Or.inl ⟨lit_none h1, rfl, fun j ⟨i₁, h3, h2⟩ => ?_⟩
    have := (lit_cases h1).2
    rw [e0] at h3
    cases h3
    simp only at h2
    rw [h2] at this
    simp [List.isPrefixOf] at this
  obtain ⟨rfl, e1⟩ := lit1_some h1
  refine Or.inr ⟨r1, ⟨r0, e0, e1⟩, ?_⟩
  replace h := bind_cases h
  rcases h with ⟨h2, rfl⟩ | ⟨s2, a, r2, h2, h⟩
  · exact Or.inl ⟨h2, rfl⟩
  refine Or.inr ⟨s2, a, r2, h2, ?_⟩
  replace h := bind_cases h
  rcases h with ⟨h3, rfl⟩ | ⟨s3, b, r3, h3, h⟩
  · exact Or.inl ⟨h3, rfl⟩
  replace h := bind_cases h
  rcases h with ⟨h4, rfl⟩ | ⟨s4, _, r4, h4, h⟩
  · cases lit_none h4
    exact Or.inr ⟨b, r3, h3, Or.inl rfl⟩
  · obtain ⟨rfl, e4⟩ := lit1_some h4
    cases h
    exact Or.inr ⟨b, r3, h3, Or.inr ⟨r4, e4, rfl⟩⟩

theorem fnNeg_cases {T : Parser Tm} {st st' : PSt} {i : List Char}
    {x : Option (Tm × List Char)} (h : fnNeg T st i = .ok (st', x)) :
    (st' = st ∧ x = none) ∨ ∃ j, AfterOp '-' i j ∧
      ((T st j = .ok (st', none) ∧ x = none) ∨ ∃ a r, T st j = .ok (st', some (a, r)) ∧
          (x = none ∨ ∃ r', skipWs r = ')' :: r' ∧ x = some (.neg a, r'))) := by
  unfold fnNeg at h
  replace h := bind_cases h
  rcases h with ⟨h0, rfl⟩ | ⟨s0, _, r0, h0, h⟩
  · exact Or.inl ⟨lit_none h0, rfl⟩
  obtain ⟨rfl, e0⟩ := lit1_some h0
  replace h := bind_cases h
  rcases h with ⟨h1, rfl⟩ | ⟨s1, _, r1, h1, h⟩
  · exact Or.inl ⟨lit_none h1, rfl⟩
  obtain ⟨rfl, e1⟩ := lit1_some h1
  refine Or.inr ⟨r1, ⟨r0, e0, e1⟩, ?_⟩
  replace h := bind_cases h
  rcases h with ⟨h2, rfl⟩ | ⟨s2, a, r2, h2, h⟩
  · exact Or.inl ⟨h2, rfl⟩
  replace h := bind_cases h
  rcases h with ⟨h4, rfl⟩ | ⟨s4, _, r4, h4, h⟩
  · cases lit_none h4
    exact Or.inr ⟨a, r2, h2, Or.inl rfl⟩
  · obtain ⟨rfl, e4⟩ := lit1_some h4
    cases h
    exact Or.inr ⟨a, r2, h2, Or.inr ⟨r4, e4, rfl⟩⟩

section
variable {T : Parser Tm} (hT : Cheap T)
include hT

/-- Reading two terms, the second one not being there. -/
theorem cheap_two {st s st' : PSt} {j r : List Char} {a : Tm} {x : Option (Tm × List Char)}
    (h : T st j = .ok (s, some (a, r))) (h' : T s r = .ok (st', x)) : st'.acts ≤ st.acts + cost j := by
  obtain ⟨p, _, hp, e⟩ := isTerm_bal (hT.inv _ _ _ _ _ h)
  subst e
  have h1 := hT.some _ _ _ _ _ h
  have ho := hp r
  cases x with
  | none =>
    have h2 := hT.none _ _ _ h'
    have := cost_add (a := p) (b := r) (i := p ++ r) (by omega) (by omega) (by simp)
    omega
  | some x =>
    obtain ⟨q, _, hq, e⟩ := isTerm_bal (hT.inv _ _ _ x.1 x.2 h')
    have h2 := hT.some s st' q x.1 x.2 (by rw [← e]; exact h')
    have ho' := hq x.2
    rw [← e] at ho'
    have := cost_add (a := p) (b := q) (i := p ++ r) (by omega) (by omega) (by rw [e]; simp)
    omega

/-- the same, in terms of the text that is read -/
theorem cheap_two_some {st s st' : PSt} {p q r : List Char} {a b : Tm}
    (h : T st (p ++ (q ++ r)) = .ok (s, some (a, q ++ r))) (h' : T s (q ++ r) = .ok (st', some (b, r)))
    (hp : Bal p) : st'.acts ≤ st.acts + cost (p ++ q) := by
  have h1 := hT.some _ _ _ _ _ h
  have h2 := hT.some _ _ _ _ _ h'
  have ho := hp q
  have := cost_add (a := p) (b := q) (i := p ++ q) (by omega) (by omega) (by simp)
  omega

theorem fn2_none {op : Char} (ho : op ≠ '(' ∧ op ≠ ')') {mk : Tm → Tm → Tm} {st st' : PSt} {i : List Char}
    (h : fn2 op mk T st i = .ok (st', none)) :
    st' = st ∨ ((∃ j, AfterOp op i j) ∧ 2 * st'.acts ≤ 2 * st.acts + cost i) := by
  rcases fn2_cases h with ⟨rfl, _⟩ | ⟨j, hj, h⟩
  · exact Or.inl rfl
  refine Or.inr ⟨⟨j, hj⟩, ?_⟩
  obtain ⟨hd, hl⟩ := hj.opened ho
  have hc := cost_double (a := j) (i := i) (by omega) hl
  rcases h with ⟨h, _⟩ | ⟨s, a, r, h1, h⟩
  · have := hT.none _ _ _ h
    omega
  · have : st'.acts ≤ st.acts + cost j := by
      rcases h with ⟨h, _⟩ | ⟨b, r', h, _⟩ <;> exact cheap_two hT h1 h
    omega

theorem fn2_some {op : Char} (ho : op ≠ '(' ∧ op ≠ ')') {mk : Tm → Tm → Tm} {st st' : PSt} {p r : List Char} {t : Tm}
    (h : fn2 op mk T st (p ++ r) = .ok (st', some (t, r))) :
    (∃ j, AfterOp op (p ++ r) j) ∧ 2 * st'.acts ≤ 2 * st.acts + cost p := by
  rcases fn2_cases h with ⟨_, h, _⟩ | ⟨j, hj, h⟩
  · cases h
  refine ⟨⟨j, hj⟩, ?_⟩
  rcases h with ⟨_, h⟩ | ⟨s, a, r1, h1, ⟨_, h⟩ | ⟨b, r', h2, h⟩⟩
  · cases h
  · cases h
  rcases h with h | ⟨r'', hr, h⟩
  · cases h
  cases h
  obtain ⟨pa, _, hpa, ea⟩ := isTerm_bal (hT.inv _ _ _ _ _ h1)
  obtain ⟨pb, _, hpb, eb⟩ := isTerm_bal (hT.inv _ _ _ _ _ h2)
  subst eb
  subst ea
  have hc := cheap_two_some hT h1 h2 hpa
  obtain ⟨w, w', hw, hw', e⟩ := hj.split
  obtain ⟨v, hv, ev⟩ := ws_split r'
  have ep : p = w ++ ('(' :: ((w' ++ [op] ++ (pa ++ pb) ++ v) ++ [')'])) := by
    apply List.append_cancel_right (bs := r)
    rw [e]
    conv_lhs => rw [ev, hr]
    simp
  have hop : Flat [op] := by
    unfold Flat
    simp only [List.mem_singleton]
    exact ⟨Ne.symm ho.1, Ne.symm ho.2⟩
  have hb : Bal (w' ++ [op] ++ (pa ++ pb) ++ v) :=
    (((ws_flat hw').append hop).bal.append (hpa.append hpb)).append (ws_flat hv).bal
  have hd : opened p = opened (pa ++ pb) + 1 := by
    rw [ep, opened_flat (ws_flat hw), opened_bracket hb, (((ws_flat hw').append hop).bal.append (hpa.append hpb)),
      ((ws_flat hw').append hop).bal]
    have h1 := opened_flat ((ws_flat hw').append hop) []
    have h2 := opened_flat (ws_flat hv) []
    rw [List.append_nil] at h1 h2
    rw [h1, h2]
    simp [opened]
  have hl : (pa ++ pb).length ≤ p.length := by
    rw [ep]
    simp
    omega
  have := cost_double (by omega : opened (pa ++ pb) + 1 ≤ opened p) hl
  omega

theorem fnNeg_none {st st' : PSt} {i : List Char} (h : fnNeg T st i = .ok (st', none)) :
    st' = st ∨ ((∃ j, AfterOp '-' i j) ∧ 2 * st'.acts ≤ 2 * st.acts + cost i) := by
  rcases fnNeg_cases h with ⟨rfl, _⟩ | ⟨j, hj, h⟩
  · exact Or.inl rfl
  refine Or.inr ⟨⟨j, hj⟩, ?_⟩
  obtain ⟨hd, hl⟩ := hj.opened (by decide)
  have hc := cost_double (a := j) (i := i) (by omega) hl
  rcases h with ⟨h, _⟩ | ⟨a, r, h1, _⟩
  · have := hT.none _ _ _ h
    omega
  · obtain ⟨p, _, hp, e⟩ := isTerm_bal (hT.inv _ _ _ _ _ h1)
    subst e
    have h2 := hT.some _ _ _ _ _ h1
    have ho := hp r
    have := cost_mono (a := p) (i := p ++ r) (by omega) (by simp)
    omega

/-- The work of the unary minus and of the binary minus tried before it. -/
theorem fnNeg_some {mk : Tm → Tm → Tm} {st₁ st₂ st st' : PSt} {p r : List Char} {t : Tm}
    (h₀ : fn2 '-' mk T st₁ (p ++ r) = .ok (st₂, none)) (h : fnNeg T st (p ++ r) = .ok (st', some (t, r))) :
    (∃ j, AfterOp '-' (p ++ r) j) ∧ 2 * st'.acts ≤ 2 * st.acts + cost p ∧ 2 * st₂.acts ≤ 2 * st₁.acts + cost p := by
  rcases fnNeg_cases h with ⟨_, h⟩ | ⟨j, hj, h⟩
  · cases h
  refine ⟨⟨j, hj⟩, ?_⟩
  rcases h with ⟨_, h⟩ | ⟨a, r1, h1, h⟩
  · cases h
  rcases h with h | ⟨r', hr, h⟩
  · cases h
  cases h
  obtain ⟨pa, _, hpa, ea⟩ := isTerm_bal (hT.inv _ _ _ _ _ h1)
  have hc : st'.acts ≤ st.acts + cost pa := by
    subst ea
    exact hT.some _ _ _ _ _ h1
  have hc₂ : st₂.acts ≤ st₁.acts + cost pa := by
    rcases fn2_cases h₀ with ⟨rfl, _, _⟩ | ⟨j', hj', h⟩
    · omega
    obtain ⟨_, rfl⟩ := hj.unique hj'
    rcases h with ⟨h, _⟩ | ⟨s, b, r2, h2, h⟩
    · cases hT.det _ _ _ _ _ _ _ h1 h
    · cases hT.det _ _ _ _ _ _ _ h1 h2
      subst ea
      have h3 := hT.some _ _ _ _ _ h2
      have h4 : st₂.acts = s.acts := by
        rcases h with ⟨h, _⟩ | ⟨b, r3, h, _⟩ <;> exact hT.close _ _ _ _ _ hr h
      omega
  obtain ⟨w, w', hw, hw', e⟩ := hj.split
  obtain ⟨v, hv, ev⟩ := ws_split r1
  have ep : p = w ++ ('(' :: ((w' ++ ['-'] ++ pa ++ v) ++ [')'])) := by
    apply List.append_cancel_right (bs := r)
    rw [e, ea]
    conv_lhs => rw [ev, hr]
    simp
  have hop : Flat ['-'] := by unfold Flat; decide
  have hb : Bal (w' ++ ['-'] ++ pa ++ v) :=
    (((ws_flat hw').append hop).bal.append hpa).append (ws_flat hv).bal
  have hd : opened p = opened pa + 1 := by
    rw [ep, opened_flat (ws_flat hw), opened_bracket hb, (((ws_flat hw').append hop).bal.append hpa),
      ((ws_flat hw').append hop).bal]
    have h1 := opened_flat ((ws_flat hw').append hop) []
    have h2 := opened_flat (ws_flat hv) []
    rw [List.append_nil] at h1 h2
    rw [h1, h2]
    simp [opened]
  have hl : pa.length ≤ p.length := by
    rw [ep]
    simp
    omega
  have := cost_double (by omega : opened pa + 1 ≤ opened p) hl
  omega

end

theorem leaf_cases {α : Type} {f : List Char → Option (α × List Char)} {g : α → Parser Tm}
    (hg : ∀ a st st' i x, g a st i = .ok (st', x) → x ≠ none ∧ st'.acts = st.acts)
    {st st' : PSt} {i : List Char} {x : Option (Tm × List Char)}
    (h : (tok f >>= fun a => useSympy true >>= fun _ => g a) st i = .ok (st', x)) :
    (st' = st ∧ x = none ∧ f i = none) ∨ (x ≠ none ∧ st'.acts = st.acts + 1 ∧ f i ≠ none) := by
  replace h := bind_cases h
  rcases h with ⟨h0, rfl⟩ | ⟨s0, a, r0, h0, h⟩
  · unfold tok at h0
    simp only [Except.ok.injEq, Prod.mk.injEq] at h0
    exact Or.inl ⟨h0.1.symm, rfl, h0.2⟩
  · unfold tok at h0
    simp only [Except.ok.injEq, Prod.mk.injEq] at h0
    obtain ⟨rfl, h0⟩ := h0
    replace h := bind_cases h
    rcases h with ⟨h1, rfl⟩ | ⟨s1, _, r1, h1, h⟩
    · unfold useSympy at h1
      split at h1 <;> cases h1
    · unfold useSympy at h1
      split at h1
      · cases h1
      · cases h1
        obtain ⟨h2, h3⟩ := hg _ _ _ _ _ h
        exact Or.inr ⟨h2, h3, by rw [h0]; simp⟩

theorem leaves_cases {st st' : PSt} {i : List Char} {x : Option (Tm × List Char)}
    (h : ((realP.alt intP).alt varP) st i = .ok (st', x)) :
    (st' = st ∧ x = none) ∨ (x ≠ none ∧ st'.acts = st.acts + 1 ∧
      (realTok i ≠ none ∨ intTok i ≠ none ∨ varTok i ≠ none)) := by
  have hp : ∀ (a : Tm) (st st' : PSt) i x, (pure a : Parser Tm) st i = .ok (st', x) → x ≠ none ∧ st'.acts = st.acts := by
    intro a st st' i x h
    cases h
    exact ⟨by simp, rfl⟩
  have hv : ∀ (a : List Char) (st st' : PSt) i x, (sympyVar a >>= fun _ => pure (.var a) : Parser Tm) st i = .ok (st', x) →
      x ≠ none ∧ st'.acts = st.acts := by
    intro a st st' i x h
    cases h
    exact ⟨by simp, rfl⟩
  replace h := alt_cases h
  rcases h with ⟨h, hx⟩ | ⟨s, h, h'⟩
  · replace h := alt_cases h
    rcases h with ⟨h, hx⟩ | ⟨s, h, h'⟩
    · rcases leaf_cases hp h with ⟨_, h, _⟩ | ⟨h1, h2, h3⟩
      · exact absurd h hx
      · exact Or.inr ⟨h1, h2, Or.inl h3⟩
    · rcases leaf_cases hp h with ⟨rfl, _, _⟩ | ⟨h, _⟩
      · rcases leaf_cases hp h' with ⟨_, h, _⟩ | ⟨h1, h2, h3⟩
        · exact absurd h hx
        · exact Or.inr ⟨h1, h2, Or.inr (Or.inl h3)⟩
      · exact absurd rfl h
  · replace h := alt_cases h
    rcases h with ⟨h, hx⟩ | ⟨s', h, h''⟩
    · exact absurd rfl hx
    · rcases leaf_cases hp h with ⟨rfl, _, _⟩ | ⟨h, _⟩
      · rcases leaf_cases hp h'' with ⟨rfl, _, _⟩ | ⟨h, _⟩
        · rcases leaf_cases hv h' with ⟨h1, h2, h3⟩ | ⟨h1, h2, h3⟩
          · exact Or.inl ⟨h1, h2⟩
          · exact Or.inr ⟨h1, h2, Or.inr (Or.inr h3)⟩
        · exact absurd rfl h
      · exact absurd rfl h

theorem toks_close {i j : List Char} (h : skipWs i = ')' :: j) :
    realTok i = none ∧ intTok i = none ∧ varTok i = none := by
  have ho : optNeg i = (false, ')' :: j) := by
    unfold optNeg
    rw [h]
    rfl
  have hd : ∀ r, digits1 (')' :: r) = none := fun r => by
    unfold digits1
    rfl
  refine ⟨?_, ?_, ?_⟩
  · unfold realTok
    rw [ho, hd]
  · unfold intTok
    rw [ho]
    simp only
    rw [skipWs_cons (by decide), hd]
  · unfold varTok
    rw [h]
    rfl

theorem cheap_term (n : ℕ) : Cheap (term n) := by
  induction n with
  | zero =>
    refine ⟨term_inv 0, det_term 0, ?_, ?_, ?_⟩
    · intro st st' p t r h
      cases h
    · intro st st' i h
      cases h
    · intro st st' i j x _ h
      cases h
  | succ n ih =>
    refine ⟨term_inv (n + 1), det_term (n + 1), ?_, ?_, ?_⟩
    · intro st st' p t r h
      have hpos : 1 ≤ cost p := by
        obtain ⟨q, hq, _, e⟩ := isTerm_bal (term_inv _ _ _ _ _ _ h)
        have := List.append_cancel_right e
        subst this
        exact one_le_cost hq
      unfold term at h
      replace h := alt_cases h
      rcases h with ⟨h, hx⟩ | ⟨s0, h0, h⟩
      · rcases leaves_cases h with ⟨_, h⟩ | ⟨_, h, _⟩
        · cases h
        · omega
      obtain ⟨rfl, _⟩ | ⟨h, _⟩ := leaves_cases h0
      swap
      · exact absurd rfl h
      replace h := alt_cases h
      rcases h with ⟨h, hx⟩ | ⟨s1, h1, h⟩
      · have := (fn2_some ih (by decide) h).2
        omega
      replace h := alt_cases h
      rcases h with ⟨h, hx⟩ | ⟨s2, h2, h⟩
      · obtain ⟨⟨j, hj⟩, hc⟩ := fn2_some ih (by decide) h
        rcases fn2_none ih (by decide) h1 with rfl | ⟨⟨j', hj'⟩, _⟩
        · omega
        · exact absurd (hj.unique hj').1 (by decide)
      replace h := alt_cases h
      rcases h with ⟨h, hx⟩ | ⟨s3, h3, h⟩
      · obtain ⟨⟨j, hj⟩, hc⟩ := fn2_some ih (by decide) h
        rcases fn2_none ih (by decide) h1 with rfl | ⟨⟨j', hj'⟩, _⟩
        · rcases fn2_none ih (by decide) h2 with rfl | ⟨⟨j', hj'⟩, _⟩
          · omega
          · exact absurd (hj.unique hj').1 (by decide)
        · exact absurd (hj.unique hj').1 (by decide)
      replace h := alt_cases h
      rcases h with ⟨h, hx⟩ | ⟨s4, h4, h⟩
      · obtain ⟨⟨j, hj⟩, hc⟩ := fn2_some ih (by decide) h
        rcases fn2_none ih (by decide) h1 with rfl | ⟨⟨j', hj'⟩, _⟩
        · rcases fn2_none ih (by decide) h2 with rfl | ⟨⟨j', hj'⟩, _⟩
          · rcases fn2_none ih (by decide) h3 with rfl | ⟨⟨j', hj'⟩, _⟩
            · omega
            · exact absurd (hj.unique hj').1 (by decide)
          · exact absurd (hj.unique hj').1 (by decide)
        · exact absurd (hj.unique hj').1 (by decide)
      · obtain ⟨⟨j, hj⟩, hc, hc'⟩ := fnNeg_some ih h3 h
        rcases fn2_none ih (by decide) h1 with rfl | ⟨⟨j', hj'⟩, _⟩
        · rcases fn2_none ih (by decide) h2 with rfl | ⟨⟨j', hj'⟩, _⟩
          · rcases fn2_none ih (by decide) h4 with rfl | ⟨⟨j', hj'⟩, _⟩
            · omega
            · exact absurd (hj.unique hj').1 (by decide)
          · exact absurd (hj.unique hj').1 (by decide)
        · exact absurd (hj.unique hj').1 (by decide)
    · intro st st' i h
      unfold term at h
      replace h := alt_cases h
      rcases h with ⟨h, hx⟩ | ⟨s0, h0, h⟩
      · exact absurd rfl hx
      obtain ⟨rfl, _⟩ | ⟨h, _⟩ := leaves_cases h0
      swap
      · exact absurd rfl h
      replace h := alt_cases h
      rcases h with ⟨h, hx⟩ | ⟨s1, h1, h⟩
      · exact absurd rfl hx
      replace h := alt_cases h
      rcases h with ⟨h, hx⟩ | ⟨s2, h2, h⟩
      · exact absurd rfl hx
      replace h := alt_cases h
      rcases h with ⟨h, hx⟩ | ⟨s3, h3, h⟩
      · exact absurd rfl hx
      replace h := alt_cases h
      rcases h with ⟨h, hx⟩ | ⟨s4, h4, h5⟩
      · exact absurd rfl hx
      have hu : ∀ {a b : Char}, a ≠ b → (∃ j, AfterOp a i j) → (∃ j, AfterOp b i j) → False :=
        fun hab ⟨j, hj⟩ ⟨j', hj'⟩ => hab (hj.unique hj').1
      rcases fn2_none ih (by decide) h1 with e1 | ⟨a1, c1⟩ <;> rcases fn2_none ih (by decide) h2 with e2 | ⟨a2, c2⟩ <;>
        rcases fn2_none ih (by decide) h3 with e3 | ⟨a3, c3⟩ <;> rcases fn2_none ih (by decide) h4 with e4 | ⟨a4, c4⟩ <;>
        rcases fnNeg_none ih h5 with e5 | ⟨a5, c5⟩ <;>
        first
          | (exfalso; exact hu (by decide) a1 a2)
          | (exfalso; exact hu (by decide) a1 a3)
          | (exfalso; exact hu (by decide) a1 a4)
          | (exfalso; exact hu (by decide) a1 a5)
          | (exfalso; exact hu (by decide) a2 a3)
          | (exfalso; exact hu (by decide) a2 a4)
          | (exfalso; exact hu (by decide) a2 a5)
          | (exfalso; exact hu (by decide) a3 a4)
          | (exfalso; exact hu (by decide) a4 a5)
          | (subst_vars; omega)
    · intro st st' i j x hi h
      obtain ⟨hr, hin, hv⟩ := toks_close hi
      have hno : ∀ op k, ¬ AfterOp op i k := by
        rintro op k ⟨i₁, h1, _⟩
        rw [hi] at h1
        cases h1
      have hf : ∀ {op mk st st' x}, fn2 op mk (term n) st i = .ok (st', x) → st' = st := by
        intro op mk st st' x h
        rcases fn2_cases h with ⟨h, _⟩ | ⟨k, hk, _⟩
        · exact h
        · exact absurd hk (hno _ _)
      have hn : ∀ {st st' x}, fnNeg (term n) st i = .ok (st', x) → st' = st := by
        intro st st' x h
        rcases fnNeg_cases h with ⟨h, _⟩ | ⟨k, hk, _⟩
        · exact h
        · exact absurd hk (hno _ _)
      have hl : ∀ {st st' x}, ((realP.alt intP).alt varP) st i = .ok (st', x) → st' = st := by
        intro st st' x h
        rcases leaves_cases h with ⟨h, _⟩ | ⟨_, _, h⟩
        · exact h
        · rcases h with h | h | h <;> contradiction
      unfold term at h
      replace h := alt_cases h
      rcases h with ⟨h, hx⟩ | ⟨s0, h0, h⟩
      · rw [hl h]
      cases hl h0
      replace h := alt_cases h
      rcases h with ⟨h, hx⟩ | ⟨s1, h1, h⟩
      · rw [hf h]
      cases hf h1
      replace h := alt_cases h
      rcases h with ⟨h, hx⟩ | ⟨s2, h2, h⟩
      · rw [hf h]
      cases hf h2
      replace h := alt_cases h
      rcases h with ⟨h, hx⟩ | ⟨s3, h3, h⟩
      · rw [hf h]
      cases hf h3
      replace h := alt_cases h
      rcases h with ⟨h, hx⟩ | ⟨s4, h4, h⟩
      · rw [hf h]
      cases hf h4
      rw [hn h]

/-! ### Whole files -/

section
variable {α β : Type} {d L : ℕ}

/-- Short texts with few open brackets. -/
def Small (d L : ℕ) (i : List Char) : Prop := i.length ≤ L ∧ ∀ a j, i = a ++ j → opened j ≤ d

theorem Small.suffix {i a j : List Char} (h : Small d L i) (e : i = a ++ j) : Small d L j := by
  refine ⟨?_, fun b k e' => h.2 (a ++ b) k (by rw [e, e', List.append_assoc])⟩
  have := h.1
  rw [e, List.length_append] at this
  omega

/-- On small texts at most `B` numbers and names are handled; the rest is a part of the text. -/
def Costs (d L : ℕ) (p : Parser α) (B : ℕ) : Prop := ∀ st st' i x, Small d L i → p st i = .ok (st', x) →
  st'.acts ≤ st.acts + B ∧ ∀ a r, x = some (a, r) → ∃ q, i = q ++ r

theorem Costs.bind {p : Parser α} {f : α → Parser β} {A B : ℕ} (hp : Costs d L p A) (hf : ∀ a, Costs d L (f a) B) :
    Costs d L (p >>= f) (A + B) := by
  intro st st' i x hi h
  replace h := bind_cases h
  rcases h with ⟨h, rfl⟩ | ⟨s, a, r, h1, h2⟩
  · have := (hp _ _ _ _ hi h).1
    exact ⟨by omega, fun a r e => by cases e⟩
  · obtain ⟨h3, h4⟩ := hp _ _ _ _ hi h1
    obtain ⟨q, e⟩ := h4 a r rfl
    obtain ⟨h5, h6⟩ := hf a _ _ _ _ (hi.suffix e) h2
    refine ⟨by omega, fun b r' e' => ?_⟩
    obtain ⟨q', e''⟩ := h6 b r' e'
    exact ⟨q ++ q', by rw [e, e'', List.append_assoc]⟩

theorem Costs.alt {p q : Parser α} {A B : ℕ} (hp : Costs d L p A) (hq : Costs d L q B) :
    Costs d L (p.alt q) (A + B) := by
  intro st st' i x hi h
  replace h := alt_cases h
  rcases h with ⟨h, _⟩ | ⟨s, h1, h2⟩
  · obtain ⟨h3, h4⟩ := hp _ _ _ _ hi h
    exact ⟨by omega, h4⟩
  · obtain ⟨h3, _⟩ := hp _ _ _ _ hi h1
    obtain ⟨h5, h6⟩ := hq _ _ _ _ hi h2
    exact ⟨by omega, h6⟩

theorem costs_pure (a : α) : Costs d L (pure a : Parser α) 0 := by
  intro st st' i x _ h
  cases h
  exact ⟨le_rfl, fun b r e => by cases e; exact ⟨[], rfl⟩⟩

theorem costs_lit (s : List Char) : Costs d L (lit s) 0 := by
  intro st st' i x _ h
  refine ⟨by rw [(lit_cases h).1]; exact le_rfl, fun a r e => ?_⟩
  subst e
  obtain ⟨w, _, e⟩ := lit_inv h
  exact ⟨w ++ s, by rw [e, List.append_assoc]⟩

theorem costs_kw (s : List Char) : Costs d L (kw s) 0 := by
  intro st st' i x _ h
  refine ⟨by rw [kw_state h]; exact le_rfl, fun a r e => ?_⟩
  subst e
  obtain ⟨w, _, e, _⟩ := kw_inv h
  exact ⟨w ++ s, by rw [e, List.append_assoc]⟩

theorem costs_useSympy : Costs d L (useSympy false) 0 := by
  intro st st' i x _ h
  unfold useSympy at h
  split at h
  · cases h
  · cases h
    exact ⟨le_rfl, fun b r e => by cases e; exact ⟨[], rfl⟩⟩

theorem costs_quoted : Costs d L quoted 0 := by
  intro st st' i x _ h
  unfold quoted tok at h
  simp only [Except.ok.injEq, Prod.mk.injEq] at h
  obtain ⟨rfl, h⟩ := h
  refine ⟨le_rfl, fun a r e => ?_⟩
  subst e
  obtain ⟨w, _, e⟩ := ws_split i
  split at h
  · next r₀ h0 =>
    split at h
    · cases h
    · next c r' h1 =>
      cases h
      have := List.takeWhile_append_dropWhile (p := fun c => c != '"') (l := r₀)
      rw [h1] at this
      refine ⟨w ++ '"' :: (r₀.takeWhile (fun c => c != '"') ++ [c]), ?_⟩
      rw [e, h0]
      conv_lhs => rw [← this]
      simp
  · cases h

theorem costs_term (n : ℕ) : Costs d L (term n) (2 ^ d * L) := by
  intro st st' i x hi h
  have hc : ∀ p r, i = p ++ r → opened p ≤ opened i → cost p ≤ 2 ^ d * L := by
    intro p r e ho
    have h1 := hi.2 [] i rfl
    have h2 := hi.1
    rw [e, List.length_append] at h2
    exact Nat.mul_le_mul (Nat.pow_le_pow_right (by omega) (ho.trans h1)) (by omega)
  cases x with
  | none =>
    have h1 := (cheap_term n).none _ _ _ h
    have h2 := hc i [] (by simp) le_rfl
    exact ⟨by omega, fun a r e => by cases e⟩
  | some x =>
    obtain ⟨p, _, hp, e⟩ := isTerm_bal (term_inv n st st' i x.1 x.2 h)
    have h1 := (cheap_term n).some st st' p x.1 x.2 (by rw [← e]; exact h)
    have h2 := hp x.2
    rw [← e] at h2
    have h3 := hc p x.2 e (by omega)
    exact ⟨by omega, fun a r e' => by cases e'; exact ⟨p, e⟩⟩

theorem costs_rln (k : List Char) (kind : RelKind) (n : ℕ) : Costs d L (rln k kind n) (2 * (2 ^ d * L)) := by
  have := (costs_lit (d := d) (L := L) ['(']).bind fun _ => (costs_kw k).bind fun _ => (costs_term n).bind fun a =>
    (costs_term n).bind fun b => (costs_lit [')']).bind fun _ => costs_useSympy.bind fun _ =>
      costs_pure (⟨kind, a, b⟩ : Rel Tm)
  intro st st' i x hi h
  have := this st st' i x hi h
  exact ⟨by omega, this.2⟩

theorem costs_fml (n : ℕ) : Costs d L (fml n) (12 * (2 ^ d * L)) := by
  have := (costs_rln (d := d) (L := L) ['<', '='] .le n).alt ((costs_rln ['<'] .lt n).alt ((costs_rln ['='] .eq n).alt
    ((costs_rln ['!', '='] .ne n).alt ((costs_rln ['>', '='] .ge n).alt (costs_rln ['>'] .gt n)))))
  intro st st' i x hi h
  have := this st st' i x hi h
  exact ⟨by omega, this.2⟩

theorem Costs.many {p : Parser α} {B : ℕ} (hp : Costs d L p B) (n : ℕ) : Costs d L (many p n) (n * B) := by
  induction n with
  | zero =>
    intro st st' i x _ h
    cases h
  | succ n ih =>
    intro st st' i x hi h
    unfold Vts.many at h
    split at h
    · cases h
    · next s h1 =>
      cases h
      have := (hp _ _ _ _ hi h1).1
      refine ⟨by rw [Nat.succ_mul]; omega, fun a r e => ?_⟩
      cases e
      exact ⟨[], rfl⟩
    · next s a r h1 =>
      obtain ⟨h2, h3⟩ := hp _ _ _ _ hi h1
      obtain ⟨q, e⟩ := h3 a r rfl
      obtain ⟨h4, h5⟩ := (ih.bind fun l => costs_pure (a :: l)) _ _ _ _ (hi.suffix e) h
      refine ⟨by rw [Nat.succ_mul]; omega, fun b r' e' => ?_⟩
      obtain ⟨q', e''⟩ := h5 b r' e'
      exact ⟨q ++ q', by rw [e, e'', List.append_assoc]⟩

theorem costs_side (s : List Char) (n : ℕ) : Costs d L (side s n) (n * (12 * (2 ^ d * L))) := by
  have := (costs_lit (d := d) (L := L) ['(']).bind fun _ => (costs_lit s).bind fun _ =>
    ((costs_fml n).many n).bind fun l => (costs_lit [')']).bind fun _ => costs_pure l
  intro st st' i x hi h
  have := this st st' i x hi h
  exact ⟨by omega, this.2⟩

theorem costs_cmd (n : ℕ) : Costs d L (cmd n) (2 * (n * (12 * (2 ^ d * L)))) := by
  have := (costs_lit (d := d) (L := L) ['(']).bind fun _ => (costs_lit "sequent".toList).bind fun _ =>
    costs_quoted.bind fun name => (costs_side "antecedent".toList n).bind fun a =>
      (costs_side "succedent".toList n).bind fun s => (costs_lit [')']).bind fun _ =>
        costs_pure (⟨name, a, s⟩ : Sequent)
  intro st st' i x hi h
  have := this st st' i x hi h
  exact ⟨by omega, this.2⟩

theorem scan_cost (n : ℕ) : ∀ (k : ℕ) (st st' : PSt) (i : List Char) (l : List Sequent), Small d L i →
    scan n k st i = .ok (st', l) → st'.acts ≤ st.acts + k * (2 * (n * (12 * (2 ^ d * L)))) := by
  intro k
  induction k with
  | zero =>
    intro st st' i l _ h
    cases h
  | succ k ih =>
    intro st st' i l hi h
    obtain ⟨w, _, e⟩ := ws_split i
    have hi' := hi.suffix e
    rw [Nat.succ_mul]
    unfold scan at h
    split at h
    · cases h
    · next s q r h1 =>
      obtain ⟨h2, h3⟩ := costs_cmd n _ _ _ _ hi' h1
      obtain ⟨p, e'⟩ := h3 q r rfl
      split at h
      · cases h
      · next s' l' h4 =>
        cases h
        have := ih _ _ _ _ (hi'.suffix e') h4
        omega
    · next s h1 =>
      have h2 := (costs_cmd n _ _ _ _ hi' h1).1
      split at h
      · cases h
        omega
      · next c r h3 =>
        have := ih _ _ _ _ (hi'.suffix (a := [c]) h3) h
        omega

end

/-- C64, what holds of every text: if no part of the text opens more than `d` brackets that it does not close, reading a
file handles at most `24 (n + 1)³ 2ᵈ` numbers and names, `n` being the length of the text. Thus the work is bounded by a
polynomial in the length for texts of bounded nesting, whatever they contain. Missing: a bound that is independent of the
nesting (`C64_violated`). -/
theorem C64_nesting_partial (d : ℕ) (text : List Char) (hd : Nested d text) (st st' : PSt) (l : List Sequent)
    (h : parseFile st text = .ok (st', l)) : st'.acts ≤ st.acts + 24 * (text.length + 1) ^ 3 * 2 ^ d := by
  unfold parseFile at h
  split at h
  · cases h
  have := scan_cost (d := d) (L := text.length + 1) (text.length + 1) _ _ _ _ _
    ⟨Nat.le_succ _, fun a j e => hd.suffix e⟩ h
  refine this.trans (le_of_eq ?_)
  ring

/-- A sequent with three nested unary minus signs: nesting 6, and `8 + 1` numbers and names handled in the antecedent, two
in the succedent. -/
example : Nested 6 "(sequent \"a\" (antecedent (<= (-(-(-x))) 1)) (succedent (> y 2)))".toList ∧
    (parseFile ⟨[], 0⟩ "(sequent \"a\" (antecedent (<= (-(-(-x))) 1)) (succedent (> y 2)))".toList).toOption.map
      (fun r => (r.1.acts, r.2.length)) = some (11, 1) :=
  ⟨nested_of_tails (by decide +kernel), by decide +kernel⟩

end Verif.Vts
