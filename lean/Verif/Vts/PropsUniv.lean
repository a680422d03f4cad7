import Verif.Vts.UnivModel
import Verif.Vts.PropsParserErr
import Verif.Vts.PropsChecker

/-!
# C49, C66-C68: from files to verdicts
-/

set_option linter.unusedSectionVars false

open Polynomial Verif.Alg

namespace Verif.Vts

/-! ### Meaning -/

/-- The value of a term. -/
noncomputable def Tm.value (env : List Char → ℝ) : Tm → ℝ
  | .int z => z
  | .dec q => q
  | .var s => env s
  | .add a b => a.value env + b.value env
  | .mul a b => a.value env * b.value env
  | .sub a b => a.value env - b.value env
  | .div a b => a.value env / b.value env
  | .neg a => -a.value env

/-- The relation holds at a point. -/
def relHolds (r : Rel Tm) (env : List Char → ℝ) : Prop := r.kind.holds (r.lhs.value env) (r.rhs.value env)

/-- The sequent holds at a point: the antecedent implies every formula of the succedent. -/
def sequentHolds (q : Sequent) (env : List Char → ℝ) : Prop :=
  (∀ r ∈ q.ante, relHolds r env) → ∀ r ∈ q.succ, relHolds r env

/-- Polynomial terms over the integers: decimals and quotients do not occur. -/
def Tm.Poly : Tm → Prop
  | .int _ | .var _ => True
  | .dec _ | .div _ _ => False
  | .add a b | .mul a b | .sub a b => a.Poly ∧ b.Poly
  | .neg a => a.Poly

/-- What is assumed of sympy's simplification: a term simplified to a number has this value everywhere, and literals are
numbers. -/
structure SympyOK (S : SympyEnv) : Prop where
  num : ∀ t c, S.num t = some c → ∀ env, t.value env = c
  int : ∀ z : ℤ, S.num (.int z) = some (z : ℚ)

/-! ### Lemmas -/

/-- The value of a list of coefficients. -/
noncomputable def valC (a : ℝ) : List ℚ → ℝ
  | [] => 0
  | c :: l => c + a * valC a l

theorem valC_add (a : ℝ) : ∀ p q, valC a (addC p q) = valC a p + valC a q
  | [], q => by simp [addC, valC]
  | b :: p, [] => by simp [addC, valC]
  | b :: p, c :: q => by
    rw [addC, valC, valC, valC, valC_add a p q]
    push_cast
    ring

theorem valC_smul (a : ℝ) (c : ℚ) (p : List ℚ) : valC a (p.map (c * ·)) = c * valC a p := by
  induction p with
  | nil => simp [valC]
  | cons b p ih =>
    rw [List.map_cons, valC, valC, ih]
    push_cast
    ring

theorem valC_mul (a : ℝ) (p q : List ℚ) : valC a (mulC p q) = valC a p * valC a q := by
  induction p with
  | nil => simp [mulC, valC]
  | cons b p ih =>
    rw [mulC, valC_add, valC_smul, valC, valC, ih]
    push_cast
    ring

theorem valC_sum (a : ℝ) (l : List ℚ) : valC a l = ((List.range l.length).map fun i => (l.getD i 0 : ℝ) * a ^ i).sum := by
  induction l with
  | nil => simp [valC]
  | cons c l ih =>
    rw [valC, ih, List.length_cons, List.range_succ_eq_map, List.map_cons, List.map_map, List.sum_cons]
    simp only [List.getD_cons_zero, pow_zero, mul_one, Function.comp_def, List.getD_cons_succ, pow_succ]
    rw [← List.sum_map_mul_left]
    congr 3
    funext i
    ring

theorem valC_terms (a : ℝ) (l : List ℚ) : valC a l = ((nonzeroTerms l).map fun t => (t.1 : ℝ) * a ^ t.2).sum := by
  have h1 : ((nonzeroTerms l).map fun t => (t.1 : ℝ) * a ^ t.2).sum =
      (((List.range l.length).reverse.map fun p => (l.getD p 0, p)).map fun t => (t.1 : ℝ) * a ^ t.2).sum := by
    unfold nonzeroTerms
    generalize (List.range l.length).reverse.map (fun p => (l.getD p 0, p)) = ts
    induction ts with
    | nil => rfl
    | cons t ts ih =>
      rw [List.filter_cons]
      by_cases h : t.1 = 0
      · rw [if_neg (by simp [h])]
        rw [ih, List.map_cons, List.sum_cons, h]
        simp
      · rw [if_pos (by simp [h])]
        rw [List.map_cons, List.map_cons, List.sum_cons, List.sum_cons, ih]
  rw [h1, valC_sum, List.map_map, List.map_reverse, List.sum_reverse]
  rfl

theorem nonzeroTerms_pairwise (l : List ℚ) : ((nonzeroTerms l).map Prod.snd).Pairwise (· > ·) := by
  have h : ((List.range l.length).reverse.map fun p => (l.getD p 0, p)).Pairwise (fun a b => a.2 > b.2) := by
    rw [List.pairwise_map, List.pairwise_reverse]
    exact List.pairwise_lt_range
  rw [List.pairwise_map]
  exact h.filter _

theorem nonzeroTerms_ne (l : List ℚ) : ∀ t ∈ nonzeroTerms l, t.1 ≠ 0 := by
  intro t ht
  simpa using (List.mem_filter.1 ht).2

/-- the two shapes of an expanded expression -/
theorem toExpr_cases (l : List ℚ) : (∃ c : ℚ, toExpr l = .number (.rat c) ∧ ∀ a, valC a l = c) ∨
    (toExpr l = .expr ((nonzeroTerms l).map fun t => (.rat t.1, t.2)) ∧ nonzeroTerms l ≠ []) := by
  have hv := fun a => valC_terms a l
  unfold toExpr
  cases h : nonzeroTerms l with
  | nil => exact Or.inl ⟨0, rfl, fun a => by rw [hv, h]; simp⟩
  | cons t ts =>
    obtain ⟨c, n⟩ := t
    cases ts with
    | nil =>
      cases n with
      | zero => exact Or.inl ⟨c, rfl, fun a => by rw [hv, h]; simp⟩
      | succ n => exact Or.inr ⟨rfl, by simp⟩
    | cons t' ts => exact Or.inr ⟨by cases n <;> rfl, by simp⟩

theorem toExpr_value (l : List ℚ) (a : ℝ) : (toExpr l).value a = valC a l := by
  rcases toExpr_cases l with ⟨c, h, hv⟩ | ⟨h, _⟩
  · rw [h, hv]
    simp [SPoly.value, SPoly.toPoly]
  · rw [h, valC_terms, SPoly.value, SPoly.toPoly, map_list_sum, List.map_map, List.map_map]
    congr 1
    apply List.map_congr_left
    intro t _
    simp

theorem toExpr_good (l : List ℚ) (h : ∀ c, toExpr l ≠ .number (.rat c)) :
    (toExpr l).Rational ∧ (toExpr l).NonzeroTerms := by
  rcases toExpr_cases l with ⟨c, h', _⟩ | ⟨h', hne⟩
  · exact absurd h' (h c)
  · rw [h']
    refine ⟨⟨by simpa using hne, ?_, ?_⟩, ?_⟩
    · rw [List.map_map]
      exact nonzeroTerms_pairwise l
    · intro t ht
      obtain ⟨u, _, rfl⟩ := List.mem_map.1 ht
      exact ⟨u.1, rfl⟩
    · intro t ht
      obtain ⟨u, hu, rfl⟩ := List.mem_map.1 ht
      have := nonzeroTerms_ne l u hu
      simpa using this

theorem uni_value (a : ℝ) (t : Tm) : ∀ l, t.uni = some l → t.value (fun _ => a) = valC a l := by
  have obind : ∀ {α β : Type} (o : Option α) (f : α → Option β) (b : β), (o >>= f) = some b → ∃ x, o = some x ∧ f x = some b := by
    intro α β o f b h
    cases o with
    | none => cases h
    | some x => exact ⟨x, rfl, h⟩
  induction t with
  | int z => intro l h; cases h; simp [Tm.value, valC]
  | dec q => intro l h; cases h
  | var s => intro l h; cases h; simp [Tm.value, valC]
  | add x y ihx ihy =>
    intro l h
    obtain ⟨p, hp, h⟩ := obind _ _ _ h
    obtain ⟨q, hq, h⟩ := obind _ _ _ h
    cases h
    rw [Tm.value, ihx p hp, ihy q hq, valC_add]
  | mul x y ihx ihy =>
    intro l h
    obtain ⟨p, hp, h⟩ := obind _ _ _ h
    obtain ⟨q, hq, h⟩ := obind _ _ _ h
    cases h
    rw [Tm.value, ihx p hp, ihy q hq, valC_mul]
  | sub x y ihx ihy =>
    intro l h
    obtain ⟨p, hp, h⟩ := obind _ _ _ h
    obtain ⟨q, hq, h⟩ := obind _ _ _ h
    cases h
    rw [Tm.value, ihx p hp, ihy q hq, valC_add, valC_smul]
    push_cast
    ring
  | neg x ihx =>
    intro l h
    obtain ⟨p, hp, h⟩ := obind _ _ _ h
    cases h
    rw [Tm.value, ihx p hp, valC_smul]
    push_cast
    ring
  | div x y ihx ihy =>
    intro l h
    obtain ⟨p, hp, h⟩ := obind _ _ _ h
    obtain ⟨q, hq, h⟩ := obind _ _ _ h
    split at h
    · rename_i c hc
      cases h
      rw [Tm.value, ihx p hp, ihy q hq, valC_smul, valC_terms a q, hc]
      push_cast
      simp
      ring
    · cases h

theorem uni_poly (t : Tm) (h : t.Poly) : ∃ l, t.uni = some l := by
  induction t with
  | int z => exact ⟨_, rfl⟩
  | dec q => exact h.elim
  | var s => exact ⟨_, rfl⟩
  | add x y ihx ihy =>
    obtain ⟨p, hp⟩ := ihx h.1
    obtain ⟨q, hq⟩ := ihy h.2
    exact ⟨addC p q, by rw [Tm.uni, hp, hq]; rfl⟩
  | mul x y ihx ihy =>
    obtain ⟨p, hp⟩ := ihx h.1
    obtain ⟨q, hq⟩ := ihy h.2
    exact ⟨mulC p q, by rw [Tm.uni, hp, hq]; rfl⟩
  | sub x y ihx ihy =>
    obtain ⟨p, hp⟩ := ihx h.1
    obtain ⟨q, hq⟩ := ihy h.2
    exact ⟨addC p (q.map (-1 * ·)), by rw [Tm.uni, hp, hq]; rfl⟩
  | neg x ihx =>
    obtain ⟨p, hp⟩ := ihx h
    exact ⟨p.map (-1 * ·), by rw [Tm.uni, hp]; rfl⟩
  | div => exact h.elim

theorem value_congr (t : Tm) {env env' : List Char → ℝ} (h : ∀ s ∈ t.names, env s = env' s) :
    t.value env = t.value env' := by
  induction t with
  | int z => rfl
  | dec q => rfl
  | var s => exact h s (by simp [Tm.names])
  | add x y ihx ihy =>
    rw [Tm.value, Tm.value, ihx fun s hs => h s (List.mem_append_left _ hs), ihy fun s hs => h s (List.mem_append_right _ hs)]
  | mul x y ihx ihy =>
    rw [Tm.value, Tm.value, ihx fun s hs => h s (List.mem_append_left _ hs), ihy fun s hs => h s (List.mem_append_right _ hs)]
  | sub x y ihx ihy =>
    rw [Tm.value, Tm.value, ihx fun s hs => h s (List.mem_append_left _ hs), ihy fun s hs => h s (List.mem_append_right _ hs)]
  | div x y ihx ihy =>
    rw [Tm.value, Tm.value, ihx fun s hs => h s (List.mem_append_left _ hs), ihy fun s hs => h s (List.mem_append_right _ hs)]
  | neg x ihx => rw [Tm.value, Tm.value, ihx h]

theorem test_holds (k : RelKind) (a b : ℚ) : k.test a b = true ↔ k.holds (a : ℝ) (b : ℝ) := by
  cases k <;> simp [RelKind.test, RelKind.holds]

theorem holds_sub (k : RelKind) (a b : ℝ) : k.holds (a - b) 0 ↔ k.holds a b := by
  cases k <;> simp [RelKind.holds, sub_eq_zero]

theorem ofBool_holds {T P : Type} (ev : T → P → ℝ) (b : Bool) (x : P) : (PyRel.ofBool b : PyRel T).holds ev x ↔ b = true := by
  cases b <;> simp [PyRel.ofBool, PyRel.holds]

/-- One relation that sympy has not evaluated. -/
theorem uniRel_spec (S : SympyEnv) (r : Rel Tm) (hp : r.lhs.Poly ∧ r.rhs.Poly) : ∃ r', S.uniRel (.rel r) = .ok r' ∧
    (∀ a : ℝ, r'.holds SPoly.value a ↔ relHolds r fun _ => a) ∧ (∀ q, r' = .rel q → GoodRel q) := by
  obtain ⟨l, hl⟩ := uni_poly (.sub r.lhs r.rhs) hp
  have hv := fun a => uni_value a _ l hl
  unfold SympyEnv.uniRel
  simp only
  rw [hl]
  simp only
  by_cases h : ∃ c, toExpr l = .number (.rat c)
  · obtain ⟨c, hc⟩ := h
    rw [hc]
    refine ⟨_, rfl, ?_, ?_⟩
    · intro a
      rw [ofBool_holds, test_holds]
      have : valC a l = c := by
        have := toExpr_value l a
        rw [hc] at this
        rw [← this]
        simp [SPoly.value, SPoly.toPoly]
      unfold relHolds
      rw [← this, ← hv a, Rat.cast_zero]
      exact holds_sub _ _ _
    · intro q hq
      unfold PyRel.ofBool at hq
      split at hq <;> cases hq
  · push Not at h
    refine ⟨.rel ⟨r.kind, toExpr l, .number (.rat 0)⟩, ?_, ?_, ?_⟩
    · split
      · rename_i c hc
        exact absurd hc (h c)
      · rfl
    · intro a
      show r.kind.holds _ _ ↔ _
      have h0 : (SPoly.number (.rat 0)).value a = 0 := by simp [SPoly.value, SPoly.toPoly]
      rw [h0, toExpr_value, ← hv a]
      exact holds_sub _ _ _
    · intro q hq
      cases hq
      exact ⟨toExpr_good l h, by simp [SPoly.toPoly]⟩

/-! ### C49 -/

/-- C49: a relation between polynomials in one variable is turned into one that has the same truth value at every point.
(Relations that sympy has evaluated to `True` or `False` are the subject of C66.) -/
theorem C49_univariate (S : SympyEnv) (r : Rel Tm) (hp : r.lhs.Poly ∧ r.rhs.Poly) (v : List Char)
    (hn : ∀ s ∈ relNames r, s = v) : ∃ r', S.makeUnivariate [.rel r] = .ok [r'] ∧
      ∀ env : List Char → ℝ, r'.holds SPoly.value (env v) ↔ relHolds r env := by
  obtain ⟨r', h1, h2, _⟩ := uniRel_spec S r hp
  refine ⟨r', ?_, fun env => ?_⟩
  · unfold SympyEnv.makeUnivariate
    rw [List.mapM_cons, h1]
    rfl
  · rw [h2]
    unfold relHolds
    rw [value_congr r.lhs (env' := env) fun s hs => by rw [hn s (List.mem_append_left _ hs)],
      value_congr r.rhs (env' := env) fun s hs => by rw [hn s (List.mem_append_right _ hs)]]

/-- A sympy environment for examples: literals are numbers. -/
def sampleEnv : SympyEnv := ⟨fun t => match t with | .int z => some (z : ℚ) | _ => none, fun _ => .tt⟩

theorem sampleEnv_ok : SympyOK sampleEnv where
  num := by
    intro t c h env
    cases t with
    | int z => cases h; simp [Tm.value]
    | _ => cases h
  int := fun _ => rfl

-- `(y + 1) y ≥ 3` becomes `x² + x - 3 ≥ 0`
example : (sampleEnv.makeUnivariate [.rel ⟨.ge, .mul (.add (.var ['y']) (.int 1)) (.var ['y']), .int 3⟩]).toOption =
    some [.rel ⟨.ge, .expr [(.rat 1, 2), (.rat 1, 1), (.rat (-3), 0)], .number (.rat 0)⟩] := by decide +kernel

/-- C49 (reading): the object made for a relation when the file is read, whether sympy evaluates it or not, has the truth
value of the relation at every point. -/
theorem C49_objects (S : SympyEnv) (hS : SympyOK S) (r : Rel Tm) (env : List Char → ℝ) :
    (S.mk' r).holds (fun t e => t.value e) env ↔ relHolds r env := by
  unfold SympyEnv.mk'
  split
  · rename_i a b ha hb
    rw [ofBool_holds, test_holds]
    unfold relHolds
    rw [hS.num _ _ ha env, hS.num _ _ hb env]
  · rfl

-- `2 < 1` is read as `False`, `y < 1` is kept
example : sampleEnv.mk' ⟨.lt, .int 2, .int 1⟩ = .ff ∧ sampleEnv.mk' ⟨.lt, .var ['y'], .int 1⟩ = .rel ⟨.lt, .var ['y'], .int 1⟩ := by
  decide +kernel

/-! ### C66 -/

/-- sympy evaluates the relation when it is read. -/
def Evaluated (S : SympyEnv) (r : Rel Tm) : Prop := S.num r.lhs ≠ none ∧ S.num r.rhs ≠ none

theorem mk'_evaluated {S : SympyEnv} {r : Rel Tm} (h : Evaluated S r) : S.mk' r = .tt ∨ S.mk' r = .ff := by
  obtain ⟨h1, h2⟩ := h
  unfold SympyEnv.mk'
  cases ha : S.num r.lhs with
  | none => exact absurd ha h1
  | some a =>
    cases hb : S.num r.rhs with
    | none => exact absurd hb h2
    | some b =>
      simp only
      unfold PyRel.ofBool
      split <;> simp

theorem mk'_rel {S : SympyEnv} {r : Rel Tm} (h : ¬ Evaluated S r) : S.mk' r = .rel r := by
  unfold SympyEnv.mk'
  split
  · rename_i a b ha hb
    exact absurd ⟨by rw [ha]; simp, by rw [hb]; simp⟩ h
  · rfl

theorem uniRel_ok (S : SympyEnv) (r : Rel Tm) : ∃ r', S.uniRel (.rel r) = .ok r' := by
  unfold SympyEnv.uniRel
  simp only
  split
  · exact ⟨_, rfl⟩
  · split <;> exact ⟨_, rfl⟩

theorem mapM_except {α β : Type} (f : α → Except Err β) (e : Err) (hf : ∀ a, (∃ b, f a = .ok b) ∨ f a = .error e) (l : List α) :
    ((∃ bs, l.mapM f = .ok bs) ∧ ∀ a ∈ l, ∃ b, f a = .ok b) ∨ (l.mapM f = .error e ∧ ∃ a ∈ l, f a = .error e) := by
  induction l with
  | nil => exact Or.inl ⟨⟨[], rfl⟩, by simp⟩
  | cons a l ih =>
    rw [List.mapM_cons]
    rcases hf a with ⟨b, hb⟩ | hb
    · rcases ih with ⟨⟨bs, h1⟩, h2⟩ | ⟨h1, x, hx, h2⟩
      · left
        refine ⟨⟨b :: bs, by rw [hb, h1]; rfl⟩, ?_⟩
        intro x hx
        rcases List.mem_cons.1 hx with rfl | hx
        · exact ⟨b, hb⟩
        · exact h2 x hx
      · right
        exact ⟨by rw [hb, h1]; rfl, x, List.mem_cons_of_mem _ hx, h2⟩
    · right
      exact ⟨by rw [hb]; rfl, a, by simp, hb⟩

theorem univ_cases (S : SympyEnv) (l : List (Rel Tm)) :
    ((∃ l', S.makeUnivariate (l.map S.mk') = .ok l') ∧ ∀ r ∈ l, ¬ Evaluated S r) ∨
    (S.makeUnivariate (l.map S.mk') = .error .typeError ∧ ∃ r ∈ l, Evaluated S r) := by
  have h1 : ∀ r, Evaluated S r → S.uniRel (S.mk' r) = .error .typeError := by
    intro r h
    rcases mk'_evaluated h with h | h <;> rw [h] <;> rfl
  have h2 : ∀ r, ¬ Evaluated S r → ∃ b, S.uniRel (S.mk' r) = .ok b := by
    intro r h
    rw [mk'_rel h]
    exact uniRel_ok S r
  have e : S.makeUnivariate (l.map S.mk') = l.mapM fun r => S.uniRel (S.mk' r) := by
    unfold SympyEnv.makeUnivariate
    rw [List.mapM_map]
    rfl
  rw [e]
  rcases mapM_except (fun r => S.uniRel (S.mk' r)) .typeError (fun r => by
    by_cases h : Evaluated S r
    · exact Or.inr (h1 r h)
    · exact Or.inl (h2 r h)) l with ⟨h, h'⟩ | ⟨h, r, hr, h'⟩
  · refine Or.inl ⟨h, fun r hr hev => ?_⟩
    obtain ⟨b, hb⟩ := h' r hr
    rw [h1 r hev] at hb
    cases hb
  · refine Or.inr ⟨h, r, hr, ?_⟩
    by_contra hev
    obtain ⟨b, hb⟩ := h2 r hev
    rw [hb] at h'
    cases h'

theorem example1_cases (S : SympyEnv) (q : Sequent) :
    ((∃ x, S.example1 q = .ok x) ∧ ∀ r ∈ q.ante ++ q.succ, ¬ Evaluated S r) ∨
    (S.example1 q = .error .typeError ∧ ∃ r ∈ q.ante ++ q.succ, Evaluated S r) := by
  unfold SympyEnv.example1
  rcases univ_cases S q.ante with ⟨⟨a, ha⟩, h1⟩ | ⟨ha, r, hr, h1⟩
  · rcases univ_cases S q.succ with ⟨⟨s, hs⟩, h2⟩ | ⟨hs, r, hr, h2⟩
    · left
      refine ⟨⟨(a, s), by rw [ha, hs]; rfl⟩, ?_⟩
      intro r hr
      rcases List.mem_append.1 hr with hr | hr
      · exact h1 r hr
      · exact h2 r hr
    · right
      exact ⟨by rw [ha, hs]; rfl, r, List.mem_append_right _ hr, h2⟩
  · right
    exact ⟨by rw [ha]; rfl, r, List.mem_append_left _ hr, h1⟩

/-- C66, what the code does: the conversion of a directory of files raises exactly when some relation in some sequent of
some file is evaluated by sympy when it is read (then no file is converted). -/
theorem C66_raises_iff (S : SympyEnv) (files : List (List Char × List Sequent)) :
    ((∃ e, S.preformatUni files = .error e) ↔ ∃ f ∈ files, ∃ q ∈ f.2, ∃ r ∈ q.ante ++ q.succ, Evaluated S r) ∧
    (∀ e, S.preformatUni files = .error e → e = .typeError) := by
  have hfile : ∀ f : List Char × List Sequent,
      ((∃ x, (do let l ← f.2.mapM S.example1; return (f.1, l) : Except Err _) = .ok x) ∧
        ∀ q ∈ f.2, ∀ r ∈ q.ante ++ q.succ, ¬ Evaluated S r) ∨
      ((do let l ← f.2.mapM S.example1; return (f.1, l) : Except Err _) = .error .typeError ∧
        ∃ q ∈ f.2, ∃ r ∈ q.ante ++ q.succ, Evaluated S r) := by
    intro f
    rcases mapM_except S.example1 .typeError (fun q => by
      rcases example1_cases S q with h | h
      · exact Or.inl h.1
      · exact Or.inr h.1) f.2 with ⟨⟨l, h⟩, h'⟩ | ⟨h, q, hq, h'⟩
    · left
      refine ⟨⟨(f.1, l), by rw [h]; rfl⟩, ?_⟩
      intro q hq
      rcases example1_cases S q with h2 | h2
      · exact h2.2
      · obtain ⟨b, hb⟩ := h' q hq
        rw [h2.1] at hb
        cases hb
    · right
      refine ⟨by rw [h]; rfl, q, hq, ?_⟩
      rcases example1_cases S q with h2 | h2
      · obtain ⟨b, hb⟩ := h2.1
        rw [hb] at h'
        cases h'
      · exact h2.2
  unfold SympyEnv.preformatUni
  rcases mapM_except (fun f : List Char × List Sequent => (do let l ← f.2.mapM S.example1; return (f.1, l) : Except Err _))
    .typeError (fun f => by
      rcases hfile f with h | h
      · exact Or.inl h.1
      · exact Or.inr h.1) files with ⟨⟨x, h⟩, h'⟩ | ⟨h, f, hf, h'⟩
  · rw [h]
    refine ⟨⟨?_, ?_⟩, ?_⟩
    · rintro ⟨e, he⟩
      cases he
    · rintro ⟨f, hf, q, hq, r, hr, hev⟩
      rcases hfile f with h2 | h2
      · exact absurd hev (h2.2 q hq r hr)
      · obtain ⟨b, hb⟩ := h' f hf
        rw [h2.1] at hb
        cases hb
    · intro e he
      cases he
  · rw [h]
    refine ⟨⟨fun _ => ?_, fun _ => ⟨_, rfl⟩⟩, ?_⟩
    · rcases hfile f with h2 | h2
      · obtain ⟨b, hb⟩ := h2.1
        rw [hb] at h'
        cases h'
      · exact ⟨f, hf, h2.2⟩
    · intro e he
      cases he
      rfl

/-- C66 is violated: a directory with the sequent `0 ≤ 1 ⊢ x² ≥ 0` in one file cannot be converted. -/
theorem C66_violated (S : SympyEnv) (hS : SympyOK S) (before after : List (List Char × List Sequent)) (name : List Char) :
    ∃ q : Sequent, (∃ st, parseFile ⟨[], 0⟩
        "(sequent \"a\" (antecedent (<= 0 1)) (succedent (>= (* x x) 0)))".toList = .ok (st, [q])) ∧
      (∀ env, sequentHolds q env) ∧
      ∃ e, S.preformatUni (before ++ (name, [q]) :: after) = .error e := by
  refine ⟨⟨['a'], [⟨.le, .int 0, .int 1⟩], [⟨.ge, .mul (.var ['x']) (.var ['x']), .int 0⟩]⟩, ⟨⟨[], 5⟩, ?_⟩, ?_, ?_⟩
  · have h : (parseFile ⟨[], 0⟩ "(sequent \"a\" (antecedent (<= 0 1)) (succedent (>= (* x x) 0)))".toList).toOption =
      some (⟨[], 5⟩, [⟨['a'], [⟨.le, .int 0, .int 1⟩], [⟨.ge, .mul (.var ['x']) (.var ['x']), .int 0⟩]⟩]) := by decide +kernel
    revert h
    generalize parseFile ⟨[], 0⟩ "(sequent \"a\" (antecedent (<= 0 1)) (succedent (>= (* x x) 0)))".toList = y
    intro h
    cases y with
    | error e => cases h
    | ok v => cases h; rfl
  · intro env _ r hr
    rw [List.mem_singleton.1 hr]
    show _ ≥ _
    simp only [Tm.value, Int.cast_zero]
    exact mul_self_nonneg _
  · rw [(C66_raises_iff S _).1]
    refine ⟨(name, _), List.mem_append_right _ (List.mem_cons_self ..), _, List.mem_singleton.2 rfl,
      ⟨.le, .int 0, .int 1⟩, by simp, ?_, ?_⟩
    · rw [hS.int]; simp
    · rw [hS.int]; simp

/-! ### C67 -/

/-- The converted sequent holds at a point exactly when the sequent holds at the point with all coordinates equal to it. -/
theorem example1_spec (S : SympyEnv) (q : Sequent) (hp : ∀ r ∈ q.ante ++ q.succ, r.lhs.Poly ∧ r.rhs.Poly)
    (he : ∀ r ∈ q.ante ++ q.succ, ¬ Evaluated S r) : ∃ a s, S.example1 q = .ok (a, s) ∧
      (∀ x : ℝ, (∀ r ∈ a, r.holds SPoly.value x) ↔ ∀ r ∈ q.ante, relHolds r fun _ => x) ∧
      (∀ x : ℝ, (∀ r ∈ s, r.holds SPoly.value x) ↔ ∀ r ∈ q.succ, relHolds r fun _ => x) ∧
      (∀ r, PyRel.rel r ∈ a ++ s → GoodRel r) := by
  have key : ∀ l : List (Rel Tm), (∀ r ∈ l, r.lhs.Poly ∧ r.rhs.Poly) → (∀ r ∈ l, ¬ Evaluated S r) →
      ∃ l', S.makeUnivariate (l.map S.mk') = .ok l' ∧
        (∀ x : ℝ, (∀ r ∈ l', r.holds SPoly.value x) ↔ ∀ r ∈ l, relHolds r fun _ => x) ∧
        (∀ r, PyRel.rel r ∈ l' → GoodRel r) := by
    intro l
    induction l with
    | nil => intro _ _; exact ⟨[], rfl, by simp, by simp⟩
    | cons r l ih =>
      intro hp he
      obtain ⟨l', h1, h2, h3⟩ := ih (fun r hr => hp r (by simp [hr])) fun r hr => he r (by simp [hr])
      obtain ⟨r', h4, h5, h6⟩ := uniRel_spec S r (hp r (by simp))
      refine ⟨r' :: l', ?_, ?_, ?_⟩
      · unfold SympyEnv.makeUnivariate at h1 ⊢
        rw [List.map_cons, List.mapM_cons, mk'_rel (he r (by simp)), h4, h1]
        rfl
      · intro x
        rw [List.forall_mem_cons, List.forall_mem_cons, h2 x, h5 x]
      · intro q hq
        rcases List.mem_cons.1 hq with hq | hq
        · exact h6 q hq.symm
        · exact h3 q hq
  obtain ⟨a, ha1, ha2, ha3⟩ := key q.ante (fun r hr => hp r (by simp [hr])) fun r hr => he r (by simp [hr])
  obtain ⟨s, hs1, hs2, hs3⟩ := key q.succ (fun r hr => hp r (by simp [hr])) fun r hr => he r (by simp [hr])
  refine ⟨a, s, ?_, ha2, hs2, ?_⟩
  · unfold SympyEnv.example1
    rw [ha1, hs1]
    rfl
  · intro r hr
    rcases List.mem_append.1 hr with hr | hr
    · exact ha3 r hr
    · exact hs3 r hr

/-- C67, what the converted sequent says: it is valid exactly when the original one holds at all points with equal
coordinates. -/
theorem C67_exact (S : SympyEnv) (q : Sequent) (hp : ∀ r ∈ q.ante ++ q.succ, r.lhs.Poly ∧ r.rhs.Poly)
    (he : ∀ r ∈ q.ante ++ q.succ, ¬ Evaluated S r) : ∃ a s, S.example1 q = .ok (a, s) ∧
      (ValidConj SPoly.value a s ↔ ∀ x : ℝ, sequentHolds q fun _ => x) := by
  obtain ⟨a, s, h1, h2, h3, _⟩ := example1_spec S q hp he
  refine ⟨a, s, h1, ⟨fun h x hx => (h3 x).1 (h x ((h2 x).2 hx)), fun h x hx => (h3 x).2 (h x ((h2 x).1 hx))⟩⟩

/-- C67, what holds: the conversion of a valid sequent is valid, for any number of variables; for one variable the
converse holds too. Missing: the converse for several variables. -/
theorem C67_partial (S : SympyEnv) (q : Sequent) (hp : ∀ r ∈ q.ante ++ q.succ, r.lhs.Poly ∧ r.rhs.Poly)
    (he : ∀ r ∈ q.ante ++ q.succ, ¬ Evaluated S r) : ∃ a s, S.example1 q = .ok (a, s) ∧
      ((∀ env, sequentHolds q env) → ValidConj SPoly.value a s) ∧
      (∀ v, (∀ n ∈ sequentNames q, n = v) → (ValidConj SPoly.value a s ↔ ∀ env, sequentHolds q env)) := by
  obtain ⟨a, s, h1, h2, h3, _⟩ := example1_spec S q hp he
  have h4 : (∀ env, sequentHolds q env) → ValidConj SPoly.value a s := by
    intro h x hx
    exact (h3 x).2 (h (fun _ => x) ((h2 x).1 hx))
  refine ⟨a, s, h1, h4, fun v hv => ⟨fun h env => ?_, h4⟩⟩
  have hc : ∀ r ∈ q.ante ++ q.succ, relHolds r env ↔ relHolds r fun _ => env v := by
    intro r hr
    have hn : ∀ n ∈ relNames r, env n = env v := fun n hn => by
      rw [hv n (List.mem_flatMap.2 ⟨r, hr, hn⟩)]
    unfold relHolds
    rw [value_congr r.lhs (env' := fun _ => env v) fun n h => hn n (List.mem_append_left _ h),
      value_congr r.rhs (env' := fun _ => env v) fun n h => hn n (List.mem_append_right _ h)]
  intro hante r hr
  rw [hc r (List.mem_append_right _ hr)]
  refine (h3 (env v)).1 (h (env v) ((h2 (env v)).2 fun r hr => ?_)) r hr
  rw [← hc r (List.mem_append_left _ hr)]
  exact hante r hr

/-- A sequent in two variables: `x² ≥ 1 ⊢ x y ≥ 0`. -/
def twoVariables : Sequent :=
  ⟨['a'], [⟨.ge, .mul (.var ['x']) (.var ['x']), .int 1⟩], [⟨.ge, .mul (.var ['x']) (.var ['y']), .int 0⟩]⟩

/-- C67 is violated: `x² ≥ 1 ⊢ x y ≥ 0` is not valid, its conversion `x² ≥ 1 ⊢ x² ≥ 0` is. -/
theorem C67_violated (S : SympyEnv) (hS : SympyOK S) : (¬ ∀ env, sequentHolds twoVariables env) ∧
    ∃ a s, S.example1 twoVariables = .ok (a, s) ∧ ValidConj SPoly.value a s := by
  have hnum : ∀ s t, S.num (.mul (.var s) (.var t)) = none := by
    intro s t
    cases h : S.num (.mul (.var s) (.var t)) with
    | none => rfl
    | some c =>
      exfalso
      have h0 := hS.num _ _ h fun _ => 0
      have h1 := hS.num _ _ h fun _ => 1
      simp only [Tm.value] at h0 h1
      rw [← h0] at h1
      norm_num at h1
  constructor
  · intro h
    have := h (fun s => if s = ['x'] then 1 else -1) (by
      intro r hr
      rw [List.mem_singleton.1 hr]
      show _ ≥ _
      simp [Tm.value]) _ (List.mem_singleton.2 rfl)
    change _ ≥ _ at this
    simp [Tm.value] at this
    norm_num at this
  · obtain ⟨a, s, h1, h2, h3, _⟩ := example1_spec S twoVariables (by
      intro r hr
      simp only [twoVariables, List.cons_append, List.nil_append, List.mem_cons, List.not_mem_nil, or_false] at hr
      rcases hr with rfl | rfl <;> exact ⟨⟨trivial, trivial⟩, trivial⟩) (by
      intro r hr hev
      simp only [twoVariables, List.cons_append, List.nil_append, List.mem_cons, List.not_mem_nil, or_false] at hr
      rcases hr with rfl | rfl <;> exact hev.1 (hnum _ _))
    refine ⟨a, s, h1, fun x _ => (h3 x).2 ?_⟩
    intro r hr
    rw [List.mem_singleton.1 hr]
    show _ ≥ _
    simp only [Tm.value, Int.cast_zero]
    exact mul_self_nonneg x

example : (∀ r ∈ twoVariables.ante ++ twoVariables.succ, r.lhs.Poly ∧ r.rhs.Poly) ∧
    (∀ r ∈ twoVariables.ante ++ twoVariables.succ, ¬ Evaluated sampleEnv r) := by
  constructor
  · intro r hr
    simp only [twoVariables, List.cons_append, List.nil_append, List.mem_cons, List.not_mem_nil, or_false] at hr
    rcases hr with rfl | rfl <;> exact ⟨⟨trivial, trivial⟩, trivial⟩
  · intro r hr hev
    simp only [twoVariables, List.cons_append, List.nil_append, List.mem_cons, List.not_mem_nil, or_false] at hr
    rcases hr with rfl | rfl <;> exact hev.1 rfl

/-! ### Verdicts are reached -/

/-- The members of systems are relations of the four kinds of the relation map. -/
def Sorted4 (r : PyRel SPoly) : Prop := ∃ q, r = .rel q ∧ (q.kind = .le ∨ q.kind = .lt ∨ q.kind = .eq ∨ q.kind = .ne)

theorem rewrite_sorted (q : Rel SPoly) : Sorted4 (rewriteToLess1 (.rel q)) := by
  obtain ⟨k, l, r⟩ := q
  cases k <;> exact ⟨_, rfl, by simp⟩

theorem relationMap_ok (sys : List (PyRel SPoly)) (h : ∀ r ∈ sys, Sorted4 r) : ∃ m, makeRelationMap sys = .ok m := by
  unfold makeRelationMap
  generalize (⟨[], [], [], []⟩ : RMap SPoly) = m₀
  induction sys generalizing m₀ with
  | nil => exact ⟨m₀, rfl⟩
  | cons r sys ih =>
    obtain ⟨⟨k, l, s⟩, rfl, hk⟩ := h r (by simp)
    have h' : ∀ r ∈ sys, Sorted4 r := fun r hr => h r (by simp [hr])
    rw [List.foldlM_cons]
    simp only at hk
    rcases hk with rfl | rfl | rfl | rfl <;> exact ih h' _

/-- The checker reaches a verdict on relations `p R 0`, at least one on each side, if the solver answers on the terms that
occur and their negations. -/
theorem checkExample_reached (Good : SPoly → Prop) (hgood : ∀ t, Good t → Good (-t))
    (solver : List SPoly → List SPoly → List SPoly → List SPoly → Except Err Bool)
    (hs : ∀ le lt eq ne, (∀ t ∈ le ++ lt ++ eq ++ ne, Good t) → ∃ b, solver le lt eq ne = .ok b)
    (ante succ : List (PyRel SPoly)) (ha : ante ≠ []) (hb : succ ≠ [])
    (hg : ∀ r ∈ ante ++ succ, ∃ q, r = .rel q ∧ Good q.lhs) : ∃ v, checkExample solver ante succ = .ok v := by
  have hrel : ∀ r ∈ ante ++ succ, ∃ q, r = .rel q := fun r hr => (hg r hr).imp fun q h => h.1
  cases hp : vtsPreformat ante succ with
  | error e =>
    exfalso
    rcases (C17_raises ante succ).1 ⟨e, hp⟩ with h | h | h
    · obtain ⟨r, l, rfl⟩ := List.exists_cons_of_ne_nil ha
      obtain ⟨q, hq⟩ := hrel r (by simp)
      rw [h r (by simp)] at hq
      cases hq
    · obtain ⟨r, l, rfl⟩ := List.exists_cons_of_ne_nil hb
      obtain ⟨q, hq⟩ := hrel r (by simp)
      rw [h r (by simp)] at hq
      cases hq
    · obtain ⟨q, hq⟩ := hrel _ (List.mem_append_right _ h)
      cases hq
  | ok systems =>
    have hmem := preformat_mem ante succ systems hp
    have hgs : ∀ s ∈ systems, ∀ r, PyRel.rel r ∈ s → Good r.lhs := by
      intro s hs' r hr
      obtain ⟨q, hq, h⟩ := hmem s hs' r hr
      obtain ⟨q', hq', hG⟩ := hg _ hq
      cases hq'
      rcases h with ⟨h3, _⟩ | ⟨h3, _⟩
      · rw [h3]; exact hG
      · rw [h3]; exact hgood _ hG
    have hsort : ∀ s ∈ systems, ∀ r ∈ s, Sorted4 r := by
      rw [vtsPreformat_eq] at hp
      split at hp
      · cases hp
      obtain ⟨l', hl', hneg⟩ : ∃ l', ((succ.filter fun p => decide (p ≠ PyRel.tt)).dedup.mapM negateRelation1) = .ok l' ∧
          ∀ r ∈ l', ∃ q, r = .rel q := by
        have hsub : ∀ q ∈ (succ.filter fun p => decide (p ≠ PyRel.tt)).dedup, ∃ r, q = .rel r := fun q hq =>
          hrel q (List.mem_append_right _ (List.mem_filter.1 (List.mem_dedup.1 hq)).1)
        revert hsub
        generalize (succ.filter fun p => decide (p ≠ PyRel.tt)).dedup = sl
        intro hsub
        induction sl with
        | nil => exact ⟨[], rfl, by simp⟩
        | cons a sl ih =>
          obtain ⟨r, rfl⟩ := hsub a (by simp)
          obtain ⟨l', h1, h2⟩ := ih fun q hq => hsub q (by simp [hq])
          refine ⟨_ :: l', by rw [List.mapM_cons, h1]; rfl, ?_⟩
          intro q hq
          rcases List.mem_cons.1 hq with rfl | hq
          · exact ⟨_, rfl⟩
          · exact h2 q hq
      rw [hl'] at hp
      simp only [Except.map, Except.ok.injEq] at hp
      subst hp
      intro s hs' r hr
      simp only [List.map_map, List.mem_map, Function.comp] at hs'
      obtain ⟨a, ha', rfl⟩ := hs'
      rcases List.mem_append.1 hr with hr | hr
      · obtain ⟨q, hq, rfl⟩ := List.mem_map.1 hr
        obtain ⟨q', rfl⟩ := hrel q (List.mem_append_left _ (List.mem_filter.1 (List.mem_dedup.1 hq)).1)
        exact rewrite_sorted q'
      · rw [List.mem_singleton.1 hr]
        obtain ⟨q', rfl⟩ := hneg a ha'
        exact rewrite_sorted q'
    unfold checkExample
    rw [hp]
    suffices H : ∀ v₀, ∃ v, (systems.foldlM (fun v formula => do
        let m ← makeRelationMap formula
        let d ← solver m.le m.lt m.eq m.ne
        Except.ok (if d then false else v)) v₀ : Except Err Bool) = Except.ok v from H true
    clear hmem hp
    induction systems with
    | nil => exact fun v₀ => ⟨v₀, rfl⟩
    | cons s systems ih =>
      obtain ⟨m, hm⟩ := relationMap_ok s (hsort s (by simp))
      obtain ⟨d, hd⟩ := hs m.le m.lt m.eq m.ne (fun t ht => by
        obtain ⟨r, hr, rfl⟩ := makeRelationMap_mem s m hm t ht
        exact hgs s (by simp) r hr)
      intro v₀
      rw [List.foldlM_cons]
      simp only [bind, Except.bind, hm, hd]
      exact ih (fun s hs => hgs s (by simp [hs])) (fun s hs => hsort s (by simp [hs])) _

/-- C17, when a verdict is reached: for relations `p R 0` with nonzero rational polynomials of degree at most five, at
least one on each side. -/
theorem C17_reached {E : Env ℤ ℝ} (hE : EnvOK E (Int.castRingHom ℝ)) (ante succ : List (PyRel SPoly)) (ha : ante ≠ [])
    (hb : succ ≠ []) (hg : ∀ r ∈ ante ++ succ, ∃ q, r = .rel q ∧ GoodRel q ∧ q.lhs.toPoly.natDegree ≤ 5) :
    ∃ v, checkExample (isymVts E) ante succ = .ok v := by
  refine checkExample_reached (fun p => (p.Rational ∧ p.NonzeroTerms) ∧ p.toPoly.natDegree ≤ 5) ?_ _ ?_ ante succ ha hb ?_
  · intro t ht
    refine ⟨SPoly.good_neg t ht.1, ?_⟩
    rw [SPoly.toPoly_neg, natDegree_neg]
    exact ht.2
  · intro le lt eq ne h
    exact (C16_isym_vts hE le lt eq ne fun p hp => (h p hp).1).2.2 fun p hp => (h p hp).2
  · intro r hr
    obtain ⟨q, h1, h2, h3⟩ := hg r hr
    exact ⟨q, h1, h2.1, h3⟩

example : ∀ r ∈ [PyRel.rel ⟨.ne, polyX, poly0⟩] ++ [.rel ⟨.lt, polyX, poly0⟩], ∃ q, r = .rel q ∧ GoodRel q ∧
    q.lhs.toPoly.natDegree ≤ 5 := by
  have hd : polyX.toPoly.natDegree ≤ 5 := by
    have : polyX.toPoly = X := by simp [polyX, SPoly.toPoly]
    rw [this, natDegree_X]
    norm_num
  intro r hr
  simp only [List.cons_append, List.nil_append, List.mem_cons, List.not_mem_nil, or_false] at hr
  rcases hr with rfl | rfl
  · exact ⟨_, rfl, polyX_good _, hd⟩
  · exact ⟨_, rfl, polyX_good _, hd⟩

/-! ### C68 -/

/-- Reading a file, converting its sequents and checking them (`examples_parser.py:198-208`, `59-65`,
`checker.py:34-56`): the verdicts, in order. -/
noncomputable def verdicts (S : SympyEnv) (E : Env ℤ ℝ) (text : List Char) : Except Err (List Bool) := do
  let x ← parseFile ⟨[], 0⟩ text
  x.2.mapM fun q => do
    let e ← S.example1 q
    checkExample (isymVts E) e.1 e.2

/-- C68: from the characters of a file to the verdicts. For files of sequents between polynomials in one variable each, no
relation of which is evaluated by sympy: whenever verdicts are reached, there is one for each sequent, and it says whether
the sequent is valid over the reals. -/
theorem C68_end_to_end (S : SympyEnv) {E : Env ℤ ℝ} (hE : EnvOK E (Int.castRingHom ℝ)) (text : List Char) (l : List Sequent)
    (h : FileText text l) (hn : ∀ q ∈ l, Plain (sequentNames q)) (h1 : ∀ q ∈ l, ∃ v, ∀ n ∈ sequentNames q, n = v)
    (hp : ∀ q ∈ l, ∀ r ∈ q.ante ++ q.succ, r.lhs.Poly ∧ r.rhs.Poly)
    (he : ∀ q ∈ l, ∀ r ∈ q.ante ++ q.succ, ¬ Evaluated S r) (vs : List Bool) (hv : verdicts S E text = .ok vs) :
    List.Forall₂ (fun q v => v = true ↔ ∀ env, sequentHolds q env) l vs := by
  obtain ⟨st, hst⟩ := C48_reading text l h hn
  unfold verdicts at hv
  rw [hst] at hv
  change (l.mapM fun q => do
    let e ← S.example1 q
    checkExample (isymVts E) e.1 e.2) = .ok vs at hv
  clear hst h
  induction l generalizing vs with
  | nil => cases hv; exact .nil
  | cons q l ih =>
    obtain ⟨a, s, e1, e2, e3, e4⟩ := example1_spec S q (hp q (by simp)) (he q (by simp))
    obtain ⟨a', s', e1', _, e5⟩ := C67_partial S q (hp q (by simp)) (he q (by simp))
    rw [e1] at e1'
    cases e1'
    obtain ⟨v, hvv⟩ := h1 q (by simp)
    rw [List.mapM_cons, e1] at hv
    cases hc : checkExample (isymVts E) a s with
    | error e =>
      simp only [bind, Except.bind, hc] at hv
      cases hv
    | ok b =>
      cases hm : (l.mapM fun q => do
        let e ← S.example1 q
        checkExample (isymVts E) e.1 e.2) with
      | error e =>
        simp only [bind, Except.bind, hc] at hv hm
        rw [hm] at hv
        cases hv
      | ok bs =>
        have hvs : vs = b :: bs := by
          simp only [bind, Except.bind, hc] at hv hm
          rw [hm] at hv
          cases hv
          rfl
        subst hvs
        refine .cons ?_ (ih (fun q hq => hn q (by simp [hq])) (fun q hq => h1 q (by simp [hq]))
          (fun q hq => hp q (by simp [hq])) (fun q hq => he q (by simp [hq])) bs hm)
        rw [C17_verdict hE a s e4 b hc]
        exact e5 v hvv

/-- One relation whose sides differ by a polynomial that is not constant stays a relation, with this polynomial. -/
theorem uniRel_degree (S : SympyEnv) (r : Rel Tm) (hp : r.lhs.Poly ∧ r.rhs.Poly) (p : ℚ[X]) (h0 : 0 < p.natDegree)
    (hv : ∀ a : ℝ, r.lhs.value (fun _ => a) - r.rhs.value (fun _ => a) = aeval a p) :
    ∃ q, S.uniRel (.rel r) = .ok (.rel q) ∧ GoodRel q ∧ q.lhs.toPoly = p := by
  obtain ⟨l, hl⟩ := uni_poly (.sub r.lhs r.rhs) hp
  have hu := fun a => uni_value a _ l hl
  have inj : ∀ q : ℚ[X], (∀ a : ℝ, aeval a q = aeval a p) → q = p := by
    intro q h
    apply Polynomial.map_injective _ (algebraMap ℚ ℝ).injective
    apply Polynomial.funext
    intro a
    rw [eval_map_algebraMap, eval_map_algebraMap, h]
  have hne : ∀ c, toExpr l ≠ .number (.rat c) := by
    intro c hc
    have : C c = p := inj _ fun a => by
      rw [← hv a]
      have h2 := toExpr_value l a
      rw [hc, ← hu a] at h2
      simpa [SPoly.value, SPoly.toPoly, Tm.value] using h2
    rw [← this, natDegree_C] at h0
    exact absurd h0 (lt_irrefl 0)
  refine ⟨⟨r.kind, toExpr l, .number (.rat 0)⟩, ?_, ⟨toExpr_good l hne, by simp [SPoly.toPoly]⟩, ?_⟩
  · unfold SympyEnv.uniRel
    simp only
    rw [hl]
    simp only
  · apply inj
    intro a
    rw [← hv a]
    exact (toExpr_value l a).trans (hu a).symm

/-- C68, when verdicts are reached: if every sequent has formulas on both sides and the sides of every relation differ by a
polynomial of degree one to five. -/
theorem C68_reached (S : SympyEnv) (hS : SympyOK S) {E : Env ℤ ℝ} (hE : EnvOK E (Int.castRingHom ℝ)) (text : List Char)
    (l : List Sequent) (h : FileText text l) (hn : ∀ q ∈ l, Plain (sequentNames q))
    (hne : ∀ q ∈ l, q.ante ≠ [] ∧ q.succ ≠ [])
    (hp : ∀ q ∈ l, ∀ r ∈ q.ante ++ q.succ, (r.lhs.Poly ∧ r.rhs.Poly) ∧ ∃ p : ℚ[X], 0 < p.natDegree ∧ p.natDegree ≤ 5 ∧
      ∀ a : ℝ, r.lhs.value (fun _ => a) - r.rhs.value (fun _ => a) = aeval a p) :
    (∀ q ∈ l, ∀ r ∈ q.ante ++ q.succ, ¬ Evaluated S r) ∧ ∃ vs, verdicts S E text = .ok vs := by
  have hev : ∀ q ∈ l, ∀ r ∈ q.ante ++ q.succ, ¬ Evaluated S r := by
    intro q hq r hr hev
    obtain ⟨_, p, h0, _, hv⟩ := hp q hq r hr
    obtain ⟨c, hc⟩ := Option.ne_none_iff_exists'.1 hev.1
    obtain ⟨d, hd⟩ := Option.ne_none_iff_exists'.1 hev.2
    have : C (c - d) = p := by
      apply Polynomial.map_injective _ (algebraMap ℚ ℝ).injective
      apply Polynomial.funext
      intro a
      rw [eval_map_algebraMap, eval_map_algebraMap, ← hv a, hS.num _ _ hc, hS.num _ _ hd]
      simp
    rw [← this, natDegree_C] at h0
    exact absurd h0 (lt_irrefl 0)
  refine ⟨hev, ?_⟩
  obtain ⟨st, hst⟩ := C48_reading text l h hn
  unfold verdicts
  rw [hst]
  change ∃ vs, (l.mapM fun q => do
    let e ← S.example1 q
    checkExample (isymVts E) e.1 e.2) = .ok vs
  clear hst h hn
  have side : ∀ k : List (Rel Tm), (∀ r ∈ k, (r.lhs.Poly ∧ r.rhs.Poly) ∧ ∃ p : ℚ[X], 0 < p.natDegree ∧ p.natDegree ≤ 5 ∧
      ∀ a : ℝ, r.lhs.value (fun _ => a) - r.rhs.value (fun _ => a) = aeval a p) → (∀ r ∈ k, ¬ Evaluated S r) →
      ∃ k', S.makeUnivariate (k.map S.mk') = .ok k' ∧ (k' = [] → k = []) ∧
        ∀ r ∈ k', ∃ q, r = .rel q ∧ GoodRel q ∧ q.lhs.toPoly.natDegree ≤ 5 := by
    intro k
    induction k with
    | nil => intro _ _; exact ⟨[], rfl, fun _ => rfl, by simp⟩
    | cons r k ih =>
      intro h1 h2
      obtain ⟨k', e1, _, e3⟩ := ih (fun r hr => h1 r (by simp [hr])) fun r hr => h2 r (by simp [hr])
      obtain ⟨hpoly, p, h0, h5, hv⟩ := h1 r (by simp)
      obtain ⟨q, f1, f2, f3⟩ := uniRel_degree S r hpoly p h0 hv
      refine ⟨.rel q :: k', ?_, by simp, ?_⟩
      · unfold SympyEnv.makeUnivariate at e1 ⊢
        rw [List.map_cons, List.mapM_cons, mk'_rel (h2 r (by simp)), f1, e1]
        rfl
      · intro r' hr'
        rcases List.mem_cons.1 hr' with rfl | hr'
        · exact ⟨q, rfl, f2, by rw [f3]; exact h5⟩
        · exact e3 r' hr'
  induction l with
  | nil => exact ⟨[], rfl⟩
  | cons q l ih =>
    obtain ⟨vs, hvs⟩ := ih (fun q hq => hne q (by simp [hq])) (fun q hq => hp q (by simp [hq]))
      (fun q hq => hev q (by simp [hq]))
    obtain ⟨a, a1, a2, a3⟩ := side q.ante (fun r hr => hp q (by simp) r (by simp [hr]))
      fun r hr => hev q (by simp) r (by simp [hr])
    obtain ⟨s, s1, s2, s3⟩ := side q.succ (fun r hr => hp q (by simp) r (by simp [hr]))
      fun r hr => hev q (by simp) r (by simp [hr])
    obtain ⟨v, hv⟩ := C17_reached hE a s (fun h => (hne q (by simp)).1 (a2 h)) (fun h => (hne q (by simp)).2 (s2 h)) (by
      intro r hr
      rcases List.mem_append.1 hr with hr | hr
      · exact a3 r hr
      · exact s3 r hr)
    refine ⟨v :: vs, ?_⟩
    rw [List.mapM_cons]
    have he : S.example1 q = .ok (a, s) := by
      unfold SympyEnv.example1
      rw [a1, s1]
      rfl
    rw [he]
    simp only [bind, Except.bind] at hvs ⊢
    rw [hv, hvs]
    rfl

/-- A file with one sequent, `x < 3 ⊢ x² ≤ 9`. -/
def oneVariableText : List Char := "(sequent \"a\" (antecedent (< x 3)) (succedent (<= (* x x) 9)))".toList

/-- The sequent in it. -/
def oneVariable : Sequent := ⟨['a'], [⟨.lt, .var ['x'], .int 3⟩], [⟨.le, .mul (.var ['x']) (.var ['x']), .int 9⟩]⟩

theorem oneVariable_text : FileText oneVariableText [oneVariable] := by
  have dg : ∀ ds : List Char, ds ≠ [] → ds.all isNum = true → Digits ds := fun ds h h' =>
    ⟨h, fun c hc => isNum_iff.1 (List.all_eq_true.1 h' c hc)⟩
  have sp : Ws [' '] := ws_of_all rfl
  have x : TermText ['x'] (.var ['x']) := .var _ ⟨'x', [], rfl, isVar1_iff.1 rfl, by simp⟩
  have n1 := TermText.int "3".toList false (dg _ (by decide) rfl)
  have n2 := TermText.int "9".toList false (dg _ (by decide) rfl)
  have xy := TermText.mul [] [' '] [' '] [] _ _ _ _ nil_ws sp sp nil_ws (by decide) x x
  have r1 := RelText.mk [] [' '] [' '] [] _ _ .lt _ _ nil_ws sp sp nil_ws (by decide) (by decide) x n1
  have r2 := RelText.mk [] [' '] [' '] [] _ _ .le _ _ nil_ws sp sp nil_ws (by decide) (by decide) xy n2
  have l1 := RelsText.cons [' '] _ _ _ _ sp r1 (.nil [] nil_ws)
  have l2 := RelsText.cons [' '] _ _ _ _ sp r2 (.nil [] nil_ws)
  have q := SequentText.mk [] [' '] [' '] [] [' '] [] [] ['a'] _ _ _ _ nil_ws sp sp nil_ws sp nil_ws nil_ws (by decide) l1 l2
  have junk : Junk [] := by
    intro a w t
    left
    simp
  have f := FileText.cons [] _ _ _ _ junk q (.nil [] junk)
  have e1 : (decimal "3".toList : ℤ) = 3 := by decide +kernel
  have e2 : (decimal "9".toList : ℤ) = 9 := by decide +kernel
  rw [e1, e2] at f
  exact f

/-- The hypotheses of C68 hold for this file, the verdict is reached, and it is that the sequent is not valid. -/
example {E : Env ℤ ℝ} (hE : EnvOK E (Int.castRingHom ℝ)) : verdicts sampleEnv E oneVariableText = .ok [false] := by
  have hnames : ∀ q ∈ [oneVariable], ∀ n ∈ sequentNames q, n = ['x'] := by
    intro q hq n hn
    rw [List.mem_singleton.1 hq] at hn
    have : n ∈ [['x'], ['x'], ['x']] := hn
    simpa using this
  have hplain : ∀ q ∈ [oneVariable], Plain (sequentNames q) := by
    intro q hq n hn
    rw [hnames q hq n hn]
    decide
  have hpoly : ∀ q ∈ [oneVariable], ∀ r ∈ q.ante ++ q.succ, (r.lhs.Poly ∧ r.rhs.Poly) ∧ ∃ p : ℚ[X], 0 < p.natDegree ∧
      p.natDegree ≤ 5 ∧ ∀ a : ℝ, r.lhs.value (fun _ => a) - r.rhs.value (fun _ => a) = aeval a p := by
    intro q hq r hr
    rw [List.mem_singleton.1 hq] at hr
    simp only [oneVariable, List.cons_append, List.nil_append, List.mem_cons, List.not_mem_nil, or_false] at hr
    rcases hr with rfl | rfl
    · refine ⟨⟨trivial, trivial⟩, X - C 3, ?_, ?_, ?_⟩
      · rw [natDegree_X_sub_C]; norm_num
      · rw [natDegree_X_sub_C]; norm_num
      · intro a
        simp [Tm.value]
    · refine ⟨⟨⟨trivial, trivial⟩, trivial⟩, X ^ 2 - C 9, ?_, ?_, ?_⟩
      · rw [natDegree_X_pow_sub_C]; norm_num
      · rw [natDegree_X_pow_sub_C]; norm_num
      · intro a
        simp [Tm.value, sq]
  obtain ⟨hev, vs, hvs⟩ := C68_reached sampleEnv sampleEnv_ok hE oneVariableText [oneVariable] oneVariable_text hplain
    (by intro q hq; rw [List.mem_singleton.1 hq]; exact ⟨by simp [oneVariable], by simp [oneVariable]⟩) hpoly
  have := C68_end_to_end sampleEnv hE oneVariableText [oneVariable] oneVariable_text hplain
    (fun q hq => ⟨_, hnames q hq⟩) (fun q hq r hr => (hpoly q hq r hr).1) hev vs hvs
  cases this with
  | cons h1 h2 =>
    rename_i v vs'
    cases h2
    rw [hvs]
    cases v with
    | false => rfl
    | true =>
      exfalso
      have := h1.1 rfl (fun _ => -4) (by
        intro r hr
        rw [List.mem_singleton.1 hr]
        show _ < _
        norm_num [Tm.value]) _ (List.mem_singleton.2 rfl)
      change _ ≤ _ at this
      norm_num [Tm.value] at this

end Verif.Vts
