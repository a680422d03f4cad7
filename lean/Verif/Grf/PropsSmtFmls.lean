import Verif.Grf.PropsSmtUnique

/-!
# C79: lists of formulas
-/

set_option linter.unusedSectionVars false

namespace Verif.Grf

open Verif.Vts (isWs skipWs Ws skipWs_ws)

variable {K : Type} [Field K] [LinearOrder K] [IsStrictOrderedRing K]

/-- The term contains no division. -/
def Tm.Whole : Tm → Prop
  | .num _ | .word _ => True
  | .add a b | .mul a b | .sub a b => a.Whole ∧ b.Whole
  | .neg a => a.Whole
  | .div _ _ => False

theorem sfml_end (E : SmtEnv K) {n : ℕ} {st : Ctx} {w : List Char} (hw : Ws w) :
    sfml E n st (w ++ []) = .ok (st, none) := by
  have h : ∀ (k : List Char) (op : String), srln E k op n st (w ++ []) = .ok (st, none) := by
    intro k op
    unfold srln
    apply sbind_none
    unfold slit stok
    beta_reduce
    rw [skipWs_ws hw]
    rfl
  unfold sfml
  rw [salt_none (h _ _), salt_none (h _ _), salt_none (h _ _), salt_none (h _ _), salt_none (h _ _), h]

theorem fmls_text (E : SmtEnv K) (o : ℕ) {text : List Char} {fs : List Fm} (h : RelsText E.num text fs) (st : SmtState) :
    fmlsTokenList E o text st =
      match readFms E.quot (st.heap o).ctx fs with
      | .error e => .error (.act (.loop e))
      | .ok (as, c) => .ok (as, withCtx st o c) := by
  obtain ⟨w, hw, e⟩ := smany_gen E o h (tail := []) (fun _ _ _ hw => sfml_end E hw) (text.length + 1) (text.length + 1)
    (by omega) (by omega)
  have e' := e st
  rw [List.append_nil] at e'
  unfold fmlsTokenList
  rw [e']
  cases readFms E.quot (st.heap o).ctx fs with
  | error e => rfl
  | ok r =>
    simp only
    rw [if_pos]
    rw [skipWs_ws hw]
    rfl

theorem readTm_whole {quot : MPoly → MPoly → Option MPoly} {t : Tm} : t.Whole → ∀ c, ∃ r, readTm quot c t = .ok r := by
  induction t with
  | num q => intro _ c; exact ⟨_, rfl⟩
  | word s => intro _ c; exact ⟨_, rfl⟩
  | neg a ih =>
    intro h c
    obtain ⟨r, hr⟩ := ih h c
    exact ⟨((MPoly.const 0).sub r.1, r.2), by simp only [readTm, hr, bind, Except.bind]⟩
  | add a b iha ihb | mul a b iha ihb | sub a b iha ihb =>
    intro h c
    obtain ⟨r, hr⟩ := iha h.1 c
    obtain ⟨r', hr'⟩ := ihb h.2 r.2
    simp only [readTm, hr, hr', bind, Except.bind]
    exact ⟨_, rfl⟩
  | div a b => intro h; exact h.elim

theorem readFms_whole {quot : MPoly → MPoly → Option MPoly} : ∀ (fs : List Fm),
    (∀ f ∈ fs, f.lhs.Whole ∧ f.rhs.Whole) → ∀ c, ∃ r, readFms quot c fs = .ok r := by
  intro fs
  induction fs with
  | nil => intro _ c; exact ⟨_, rfl⟩
  | cons f fs ih =>
    intro h c
    obtain ⟨h1, h2⟩ := h f (by simp)
    obtain ⟨l, hl⟩ := readTm_whole (quot := quot) h1 c
    obtain ⟨r, hr⟩ := readTm_whole (quot := quot) h2 l.2
    have hop : mkAtom l.1 f.op.toString r.1 = .ok ⟨l.1.sub r.1, f.op, (l.1.sub r.1).vars⟩ := by
      unfold mkAtom
      have : Op.ofString f.op.toString = some f.op := by cases f.op <;> decide
      rw [this]
    obtain ⟨x, hx⟩ := ih (fun f hf => h f (by simp [hf])) r.2
    simp only [readFms, readFm, hl, hr, hop, hx, bind, Except.bind]
    exact ⟨_, rfl⟩

/-- **C79**: whatever the text is, if `fmlsTokenList` returns a list, in a context without names, then the text consists of
formulas, in one way, there is one atom for each of them, in this order, and for all values of the names in the text there
are values of the variables at which each atom holds just if its formula does (unless a divisor in it is zero). -/
theorem C79_formulas (E : SmtEnv K) (hq : QuotOK K E.quot) (interactive : Bool) (lines : List (List Char))
    (text : List Char) (as : List Atom) (st' : SmtState)
    (h : fmlsTokenList E (SmtReader.new interactive lines).1.cur text (SmtReader.new interactive lines).2 = .ok (as, st')) :
    (∃ fs, RelsText E.num text fs) ∧ ∀ fs, RelsText E.num text fs → as.length = fs.length ∧
      ∀ σ : String → K, ∃ ρ : ℕ → K, ∀ (i : ℕ) (f : Fm) (a : Atom), fs[i]? = some f → as[i]? = some a → f.defined σ →
        (a.holds ρ ↔ f.holds σ) := by
  constructor
  · unfold fmlsTokenList at h
    split at h
    · cases h
    · cases h
    · next st1 l r hl =>
      split at h
      · next hr =>
        obtain ⟨s, l', e, hs⟩ := smany_inv E _ _ _ _ _ _ _ _ hl r [] (ws_of_skipWs hr) (by simp)
        rw [List.append_nil] at e
        rw [e]
        exact ⟨l', hs⟩
      · cases h
  · intro fs hfs
    rw [fmls_text E _ hfs] at h
    have hc : (((SmtReader.new interactive lines).2.heap (SmtReader.new interactive lines).1.cur).ctx) = Ctx.init := rfl
    rw [hc] at h
    split at h
    · cases h
    · next as' c hr =>
      cases h
      refine ⟨(readFms_ok hq fs _ _ _ init_ok hr).2.2.1, fun σ => ?_⟩
      obtain ⟨ρ, hρ, _⟩ := point_of_names hq init_ok hr (B := ([], c)) (succ := []) rfl σ
      exact ⟨ρ, hρ⟩

/-- **C79**, the converse: a text that consists of formulas without division is read. -/
theorem C79_total (E : SmtEnv K) (interactive : Bool) (lines : List (List Char)) (text : List Char) (fs : List Fm)
    (h : RelsText E.num text fs) (hw : ∀ f ∈ fs, f.lhs.Whole ∧ f.rhs.Whole) :
    ∃ as st', fmlsTokenList E (SmtReader.new interactive lines).1.cur text (SmtReader.new interactive lines).2 =
      .ok (as, st') := by
  obtain ⟨r, hr⟩ := readFms_whole (quot := E.quot) fs hw
    (((SmtReader.new interactive lines).2.heap (SmtReader.new interactive lines).1.cur).ctx)
  rw [fmls_text E _ h, hr]
  exact ⟨_, _, rfl⟩

/-- `" (> x 0.) (> y 0.)\n"` -/
example : ∃ fs, RelsText testNum " (> x 0.) (> y 0.)\n".toList fs ∧ fs.length = 2 ∧
    ∀ f ∈ fs, f.lhs.Whole ∧ f.rhs.Whole := by
  refine ⟨_, RelsText.cons [' '] _ _ _ _ ws_one (text_gt 'x' word_x)
      (RelsText.cons [' '] _ _ _ _ ws_one (text_gt 'y' word_y) (RelsText.nil ['\n'] ws_nl)), rfl, ?_⟩
  intro f hf
  simp only [List.mem_cons, List.not_mem_nil, or_false] at hf
  rcases hf with rfl | rfl <;> exact ⟨trivial, trivial⟩

end Verif.Grf
