import Verif.Qe.ChMain
import Mathlib.Tactic.Ring

/-!
# Depth of the recursion of `_real_table`
-/

set_option linter.unusedSectionVars false

namespace Verif.Qe

variable {R : Type} [CommRing R] [DecidableEq R]

/-- the bound for polynomials of length at most `d`, `s` of them -/
def chDepth : ℕ → ℕ → ℕ
  | 0, _ => 1
  | d + 1, s => s + chDepth d (2 ^ s * s)

theorem chDepth_mono : ∀ d : ℕ, Monotone (chDepth d) := by
  intro d
  induction d with
  | zero => intro a b _; exact le_rfl
  | succ d ih =>
    intro a b h
    rw [chDepth, chDepth]
    exact Nat.add_le_add h (ih (Nat.mul_le_mul (Nat.pow_le_pow_right (by omega) h) h))

/-- the model's recursion bound was sufficient -/
def NF {α : Type} (x : Except QErr α) : Prop := x ≠ .error .outOfFuel

theorem nf_ok {α : Type} (a : α) : NF (.ok a : Except QErr α) := fun h => by cases h

theorem nf_err {α : Type} {e : QErr} (h : e ≠ .outOfFuel) : NF (.error e : Except QErr α) :=
  fun h' => h (by cases h'; rfl)

theorem nf_bind {α β : Type} {x : Except QErr α} {f : α → Except QErr β} (h : NF x)
    (hf : ∀ a, x = .ok a → NF (f a)) : NF (x >>= f) := by
  cases x with
  | error e => exact nf_err fun h' => h (by rw [h'])
  | ok a => exact hf a rfl

theorem nf_mapM {α β : Type} {f : α → Except QErr β} : ∀ l : List α, (∀ a ∈ l, NF (f a)) → NF (l.mapM f) := by
  intro l
  induction l with
  | nil => intro _; exact nf_ok _
  | cons a l ih =>
    intro h
    rw [List.mapM_cons]
    exact nf_bind (h a (by simp)) fun b _ => nf_bind (ih fun x hx => h x (by simp [hx])) fun _ _ => nf_ok _

theorem nf_foldlM {α β : Type} {f : β → α → Except QErr β} : ∀ (l : List α) (b : β), (∀ b, ∀ a ∈ l, NF (f b a)) →
    NF (l.foldlM f b) := by
  intro l
  induction l with
  | nil => intro b _; exact nf_ok _
  | cons a l ih =>
    intro b h
    rw [List.foldlM_cons]
    exact nf_bind (h b a (by simp)) fun b _ => ih b fun b x hx => h b x (by simp [hx])

/-! ### The functions that do not call themselves -/

theorem nf_pdivLoop (g : List R) : ∀ (n : ℕ) (r : List R), NF (pdivLoop g n r) := by
  intro n
  induction n with
  | zero => intro r; rw [pdivLoop]; exact nf_err (by decide)
  | succ n ih =>
    intro r
    rw [pdivLoop]
    split
    · exact nf_ok _
    · split
      · exact ih _
      · exact nf_err (by decide)

theorem pdivLoop_length (g : List R) : ∀ (n : ℕ) (r r' : List R), pdivLoop g n r = .ok r' → r'.length < g.length := by
  intro n
  induction n with
  | zero => intro r r' h; rw [pdivLoop] at h; cases h
  | succ n ih =>
    intro r r' h
    rw [pdivLoop] at h
    split at h
    · next hl => cases h; simpa using hl
    · split at h
      · exact ih _ _ h
      · cases h

theorem nf_pseudoRem (f g : List R) : NF (pseudoRem f g) := by
  unfold pseudoRem
  split
  · exact nf_err (by decide)
  · split
    · exact nf_ok _
    · exact nf_pdivLoop _ _ _

theorem pseudoRem_length {f g r : List R} (hl : g.length ≤ f.length) (h : pseudoRem f g = .ok r) :
    r.length < g.length := by
  unfold pseudoRem at h
  split at h
  · cases h
  · rw [if_neg (by omega)] at h
    exact pdivLoop_length _ _ _ _ h

theorem nf_dRead {κ : Type} [DecidableEq κ] (D : Diagram R κ) (p : List R) (c : κ) : NF (dRead D p c) := by
  unfold dRead
  split
  · exact nf_err (by decide)
  · split
    · exact nf_err (by decide)
    · exact nf_ok _

theorem nf_signCtx (A : MAlg R) (c : Ctx R) (k : R) : NF (signCtx A c k) := by
  unfold signCtx
  split
  · exact nf_ok _
  · split
    · exact nf_err (by decide)
    · exact nf_ok _

theorem nf_tableLookup (A : MAlg R) (T : Table R) (p : List R) (col : ℚ) (c : Ctx R) :
    NF (tableLookup A T p col c) := by
  unfold tableLookup
  split
  · exact nf_dRead _ _ _
  · split
    · exact nf_ok _
    · split
      · exact nf_err (by decide)
      · exact nf_ok _

theorem nf_copyRoots (T : Table R) (tr : List (ℚ × ℚ × ℚ)) (cc : List ℚ) (p : List R) :
    NF (copyRoots T tr cc p) := by
  unfold copyRoots
  split
  · exact nf_ok _
  · refine nf_bind (nf_dRead _ _ _) fun v _ => ?_
    split
    · exact nf_ok _
    · refine nf_foldlM _ _ fun b a _ => nf_bind (nf_dRead _ _ _) fun v _ => ?_
      split <;> exact nf_ok _

theorem nf_copyTable (A : MAlg R) (T : Table R) (ps : List (List R)) (c : Ctx R) : NF (copyTable A T ps c) := by
  unfold copyTable
  split
  · exact nf_ok _
  · split
    · exact nf_err (by decide)
    · refine nf_bind (nf_foldlM _ _ fun b a _ => nf_copyRoots _ _ _ _) fun cc _ => ?_
      refine nf_foldlM _ _ fun b a _ => ?_
      refine nf_bind (nf_mapM _ fun a _ => nf_bind (nf_tableLookup _ _ _ _ _) fun v _ => nf_ok _) fun cells _ => ?_
      exact nf_bind (nf_tableLookup _ _ _ _ _) fun v _ => nf_ok _

theorem nf_chRoots (A : MAlg R) (T : Table R) (c : Ctx R) (m : List R) (inner : List ℚ) (E : Table R) (p : List R) :
    NF (chRoots A T c m inner E p) := by
  unfold chRoots
  refine nf_bind (nf_dRead _ _ _) fun v _ => ?_
  split
  · exact nf_ok _
  · refine nf_foldlM _ _ fun b a _ => nf_bind (nf_dRead _ _ _) fun v _ => ?_
    split
    · exact nf_ok _
    · refine nf_bind (nf_pseudoRem _ _) fun r _ => nf_bind (nf_tableLookup _ _ _ _ _) fun v _ => ?_
      split
      · exact nf_err (by decide)
      · exact nf_bind (nf_signCtx _ _ _) fun s _ => nf_ok _

theorem nf_chGap (m : List R) (pols : List (List R)) (E : Table R) (t : ℚ × ℚ × ℚ) : NF (chGap m pols E t) := by
  unfold chGap
  simp only []
  split
  · exact nf_ok _
  · refine nf_bind (nf_dRead _ _ _) fun v _ => nf_bind (nf_dRead _ _ _) fun w _ => ?_
    split
    · exact nf_ok _
    · split
      · refine nf_bind (nf_foldlM _ _ fun b a _ => nf_bind (nf_dRead _ _ _) fun v _ => nf_ok _) fun E _ => nf_ok _
      · exact nf_ok _

theorem nf_chGaps (m : List R) (pols : List (List R)) : ∀ (ts : List (ℚ × ℚ × ℚ)) (E : Table R),
    NF (chGaps m pols ts E) := by
  intro ts
  induction ts with
  | nil => intro E; exact nf_ok _
  | cons t ts ih =>
    intro E
    unfold chGaps
    refine nf_bind (nf_chGap _ _ _ _) fun E _ => ?_
    cases E with
    | none => exact nf_ok _
    | some E => exact ih E

theorem nf_extendSingle (A : MAlg R) (T : Table R) (c : Ctx R) (m : List R) (pols : List (List R)) :
    NF (extendSingle A T c m pols) := by
  unfold extendSingle
  refine nf_bind (nf_signCtx _ _ _) fun s _ => nf_bind (nf_copyTable _ _ _ _) fun E _ => ?_
  simp only []
  split
  · exact nf_err (by decide)
  · split
    · exact nf_err (by decide)
    · split
      · exact nf_ok _
      · exact nf_bind (nf_foldlM _ _ fun b a _ => nf_chRoots _ _ _ _ _ _ _) fun E _ => nf_chGaps _ _ _ _

theorem nf_tableMapBack (T : Table R) (pols : List (List R)) (m : Mapping R) : NF (tableMapBack T pols m) := by
  unfold tableMapBack
  refine nf_bind (nf_foldlM _ _ fun b a _ => ?_) fun r _ => nf_ok _
  unfold mapBackRow
  split
  · exact nf_err (by decide)
  · split
    · exact nf_err (by decide)
    · exact nf_ok _

theorem nf_initialTable (A : MAlg R) (p : List R) (c : Ctx R) : NF (initialTable A p c) := by
  unfold initialTable
  split
  · exact nf_err (by decide)
  · split
    · exact nf_ok _
    · split <;> exact nf_ok _

theorem nf_chTable (A : MAlg R) (polys : List (List R)) (m : List R) (needed pols : List (List R)) (mpg : Mapping R)
    (t : Table R × Ctx R) : NF (chTable A polys m needed pols mpg t) := by
  unfold chTable
  split
  · exact nf_err (by decide)
  · refine nf_bind (nf_extendSingle _ _ _ _ _) fun E _ => ?_
    cases E with
    | none => exact nf_ok _
    | some E => exact nf_bind (nf_tableMapBack _ _ _) fun mb _ => nf_bind (nf_copyTable _ _ _ _) fun T _ => nf_ok _

/-! ### `expand_context` -/

theorem nf_expandScalar (c : Ctx R) (p : List R) (m : Mapping R) : NF (expandScalar c p m) := by
  unfold expandScalar
  split
  · exact nf_err (by decide)
  · exact nf_ok _

theorem pTail_lt {p : List R} (h : p ≠ []) : (pTail p).length < p.length := by
  unfold pTail
  have h1 := strip_length_le p.dropLast
  have h2 := List.length_pos_iff.2 h
  rw [List.length_dropLast] at h1
  omega

theorem ne_nil_of_var {A : MAlg R} (h0 : A.hasVar 0 = false) {p : List R} (h : ¬ A.hasVar (lc p) = false) : p ≠ [] := by
  rintro rfl
  exact h h0

theorem nf_expandVar {A : MAlg R} (h0 : A.hasVar 0 = false) : ∀ (n : ℕ) (c : Ctx R) (ps : List (List R)) (head : List R)
    (m : Mapping R), head ≠ [] → head.length ≤ n → NF (expandVar A n c ps head m) := by
  intro n
  induction n with
  | zero =>
    intro c ps head m hne hl
    have := List.length_pos_iff.2 hne
    omega
  | succ n ih =>
    intro c ps head m hne hl
    rw [expandVar]
    refine nf_foldlM _ _ fun st s _ => ?_
    simp only []
    split
    · exact nf_ok _
    · have ht := pTail_lt hne
      have key : ∀ r : List (Expanded R) × Mapping R, NF (do
          let es ← r.1.mapM fun e =>
            match dGet e.2.2 (pTail head) with
            | none => .error .keyError
            | some t => .ok (e.1, ps ++ e.2.1, dSet e.2.2 head t)
          (.ok (st.1 ++ es, r.2) : Except QErr _)) := by
        intro r
        refine nf_bind (nf_mapM _ fun e _ => ?_) fun es _ => nf_ok _
        split
        · exact nf_err (by decide)
        · exact nf_ok _
      split
      · exact nf_bind (nf_expandScalar _ _ _) fun r _ => key r
      · next hv => exact nf_bind (ih _ _ _ _ (ne_nil_of_var h0 hv) (by omega)) fun r _ => key r

theorem nf_expandContext {A : MAlg R} (h0 : A.hasVar 0 = false) (c : Ctx R) : ∀ ps : List (List R),
    NF (expandContext A c ps) := by
  intro ps
  induction ps with
  | nil => exact nf_ok _
  | cons head rest ih =>
    unfold expandContext
    refine nf_bind ih fun er _ => ?_
    split
    · split
      · exact nf_err (by decide)
      · exact nf_ok _
    · next hv =>
      refine nf_bind (nf_mapM _ fun e _ => ?_) fun rs _ => nf_ok _
      exact nf_bind (nf_expandVar h0 _ _ _ _ _ (ne_nil_of_var h0 hv) (by omega)) fun r _ => nf_ok _

/-- a polynomial or a shorter one -/
def Cut (r p : List R) : Prop := r = p ∨ r.length < p.length

theorem mapM_of_mem {α β : Type} {f : α → Except QErr β} : ∀ (l : List α) (bs : List β), l.mapM f = .ok bs →
    ∀ b ∈ bs, ∃ a ∈ l, f a = .ok b := by
  intro l
  induction l with
  | nil => intro bs h; cases h; simp
  | cons a l ih =>
    intro bs h
    rw [List.mapM_cons] at h
    simp only [bind, Except.bind] at h
    split at h
    · cases h
    · next b hb =>
      split at h
      · cases h
      · next bs' hbs =>
        cases h
        intro x hx
        rcases List.mem_cons.1 hx with rfl | hx
        · exact ⟨a, by simp, hb⟩
        · obtain ⟨a', h1, h2⟩ := ih _ hbs x hx
          exact ⟨a', by simp [h1], h2⟩

theorem mapM_ok_length {α β : Type} {f : α → Except QErr β} : ∀ (l : List α) (bs : List β), l.mapM f = .ok bs →
    bs.length = l.length := by
  intro l
  induction l with
  | nil => intro bs h; cases h; rfl
  | cons a l ih =>
    intro bs h
    rw [List.mapM_cons] at h
    simp only [bind, Except.bind] at h
    split at h
    · cases h
    · split at h
      · cases h
      · next bs' hbs => cases h; simp [ih _ hbs]

theorem foldlM_holds {α β : Type} {f : β → α → Except QErr β} (I : β → Prop) : ∀ (l : List α) (b r : β), I b →
    (∀ b, I b → ∀ a ∈ l, ∀ b', f b a = .ok b' → I b') → l.foldlM f b = .ok r → I r := by
  intro l
  induction l with
  | nil => intro b r hb _ h; cases h; exact hb
  | cons a l ih =>
    intro b r hb hf h
    rw [List.foldlM_cons] at h
    simp only [bind, Except.bind] at h
    split at h
    · cases h
    · next b' hb' => exact ih b' r (hf b hb a (by simp) b' hb') (fun b hb x hx => hf b hb x (by simp [hx])) h

theorem expandVar_length {A : MAlg R} (h0 : A.hasVar 0 = false) : ∀ (n : ℕ) (c : Ctx R) (ps : List (List R))
    (head : List R) (m : Mapping R) (r : List (Expanded R) × Mapping R), head ≠ [] → expandVar A n c ps head m = .ok r →
    ∀ e ∈ r.1, ∃ q, e.2.1 = ps ++ [q] ∧ Cut q head := by
  intro n
  induction n with
  | zero => intro c ps head m r _ h; rw [expandVar] at h; cases h
  | succ n ih =>
    intro c ps head m r hne h
    rw [expandVar] at h
    refine foldlM_holds (fun st : List (Expanded R) × Mapping R => ∀ e ∈ st.1, ∃ q, e.2.1 = ps ++ [q] ∧ Cut q head)
      _ _ _ (by simp) ?_ h
    intro st hst s _ st' hst'
    simp only [] at hst'
    have ht := pTail_lt hne
    have key : ∀ r : List (Expanded R) × Mapping R, (∀ e ∈ r.1, ∃ q, e.2.1 = [q] ∧ Cut q (pTail head)) →
        (do
          let es ← r.1.mapM fun e =>
            match dGet e.2.2 (pTail head) with
            | none => .error .keyError
            | some t => .ok (e.1, ps ++ e.2.1, dSet e.2.2 head t)
          .ok (st.1 ++ es, r.2) : Except QErr (List (Expanded R) × Mapping R)) = .ok st' →
        ∀ e ∈ st'.1, ∃ q, e.2.1 = ps ++ [q] ∧ Cut q head := by
      intro r hr h e he
      simp only [bind, Except.bind] at h
      split at h
      · cases h
      · next es hes =>
        cases h
        rcases List.mem_append.1 he with he | he
        · exact hst e he
        · obtain ⟨e', he', h'⟩ := mapM_of_mem _ _ hes e he
          obtain ⟨q, hq, hc⟩ := hr e' he'
          split at h'
          · cases h'
          · cases h'
            refine ⟨q, by simp [hq], Or.inr ?_⟩
            rcases hc with rfl | hc <;> omega
    split at hst'
    · cases hst'
      intro e he
      rcases List.mem_append.1 he with he | he
      · exact hst e he
      · rw [List.mem_singleton] at he
        subst he
        exact ⟨head, rfl, Or.inl rfl⟩
    · split at hst'
      · unfold expandScalar at hst'
        split at hst'
        · cases hst'
        · refine key _ ?_ hst'
          intro e he
          rw [List.mem_singleton] at he
          subst he
          exact ⟨_, rfl, Or.inl rfl⟩
      · next hv =>
        cases hx : expandVar A n (dSet c (lc head) s) [] (pTail head) st.2 with
        | error e => rw [hx] at hst'; cases hst'
        | ok r =>
          rw [hx] at hst'
          refine key r ?_ hst'
          intro e he
          obtain ⟨q, h1, h2⟩ := ih _ _ _ _ _ (ne_nil_of_var h0 hv) hx e he
          exact ⟨q, by simpa using h1, h2⟩

theorem expandContext_length {A : MAlg R} (h0 : A.hasVar 0 = false) (c : Ctx R) : ∀ (ps : List (List R))
    (er : List (Expanded R)), expandContext A c ps = .ok er →
    ∀ e ∈ er, e.2.1.length = ps.length ∧ ∀ r ∈ e.2.1, ∃ p ∈ ps, Cut r p := by
  intro ps
  induction ps with
  | nil => intro er h; unfold expandContext at h; cases h; simp
  | cons head rest ih =>
    intro er h
    unfold expandContext at h
    simp only [bind, Except.bind] at h
    split at h
    · cases h
    · next er0 h0' =>
      have h1 := ih er0 h0'
      split at h
      · split at h
        · cases h
        · cases h
          intro e he
          obtain ⟨e', he', rfl⟩ := List.mem_map.1 he
          obtain ⟨a, b⟩ := h1 e' he'
          refine ⟨by simp [a], fun r hr => ?_⟩
          rcases List.mem_cons.1 hr with rfl | hr
          · exact ⟨_, by simp, Or.inl rfl⟩
          · obtain ⟨p, hp, hc⟩ := b r hr
            exact ⟨p, by simp [hp], hc⟩
      · next hv =>
        split at h
        · cases h
        · next rs hrs =>
          cases h
          intro e he
          obtain ⟨b, hb, heb⟩ := List.mem_flatten.1 he
          obtain ⟨e', he', h'⟩ := mapM_of_mem _ _ hrs b hb
          split at h'
          · cases h'
          · next r hr =>
            cases h'
            obtain ⟨q, hq, hc⟩ := expandVar_length h0 _ _ _ _ _ _ (ne_nil_of_var h0 hv) hr e heb
            obtain ⟨a, b⟩ := h1 e' he'
            refine ⟨by simp [hq, a], fun r hr => ?_⟩
            rw [hq, List.mem_append, List.mem_singleton] at hr
            rcases hr with hr | rfl
            · obtain ⟨p, hp, hc⟩ := b r hr
              exact ⟨p, by simp [hp], hc⟩
            · exact ⟨head, by simp, hc⟩

/-! ### `_real_table` -/

theorem length_degAdd (p : List R) (l : List (List R)) : (degAdd p l).length = l.length + 1 := by
  induction l with
  | nil => rfl
  | cons q l ih =>
    unfold degAdd
    split
    · simp
    · simp [ih]

theorem length_degSet (ps : List (List R)) : (degSet ps).length ≤ ps.length := by
  have key : ∀ (l acc : List (List R)),
      (l.foldl (fun acc p => if p ∈ acc then acc else degAdd p acc) acc).length ≤ acc.length + l.length := by
    intro l
    induction l with
    | nil => intro acc; simp
    | cons p l ih =>
      intro acc
      rw [List.foldl_cons]
      refine (ih _).trans ?_
      rw [List.length_cons]
      split
      · omega
      · rw [length_degAdd]; omega
  simpa [degSet] using key ps []

theorem length_neededOf (p : List R) (rest : List (List R)) : (neededOf p rest).length ≤ rest.length + 1 := by
  unfold neededOf
  split
  · split
    · omega
    · rw [length_degAdd]
  · omega

theorem nf_chContext {A : MAlg R} {rec : List (List R) → Ctx R → Except QErr (List (Table R × Ctx R))}
    {polys : List (List R)} {p : List R} {needed : List (List R)} {e : Expanded R}
    (h : ∀ rems, (e.2.1.filter fun g => decide (0 < deg g)).mapM (fun g => pseudoRem p g) = .ok rems →
      NF (rec ((e.2.1 ++ rems).filter fun p => decide (p ≠ [])) e.1)) :
    NF (chContext A rec polys p needed e) := by
  unfold chContext
  refine nf_bind (nf_mapM _ fun g _ => nf_pseudoRem _ _) fun rems hr => nf_bind (h rems hr) fun ts _ => ?_
  exact nf_bind (nf_mapM _ fun t _ => nf_chTable _ _ _ _ _ _ _) fun rs _ => nf_ok _

/-- One call: the recursive calls are for goals that are at most twice as long, in which the first polynomial is gone
and no new one is as long. -/
theorem nf_step {A : MAlg R} (h0 : A.hasVar 0 = false) {ps : List (List R)} {c : Ctx R} {p : List R}
    {rest : List (List R)} (hds : degSet ps = p :: rest) {fuel : ℕ}
    (ih : ∀ (goal : List (List R)) (c' : Ctx R), goal.length ≤ 2 * ps.length →
      (∀ q ∈ goal, q.length ≤ p.length ∧ (q.length = p.length → q ∈ rest)) → NF (realTable A fuel goal c')) :
    NF (realTable A (fuel + 1) ps c) := by
  obtain ⟨hnd, hsort, hmem⟩ := degSet_spec ps
  have hlen := length_degSet ps
  cases hps : ps with
  | nil => exact nf_ok _
  | cons p0 ps0 =>
    unfold realTable
    rw [← hps, hds]
    rw [hds] at hnd hsort hmem hlen
    rw [List.pairwise_cons] at hsort
    simp only []
    split
    · exact nf_initialTable _ _ _
    · have hnle : ∀ q ∈ neededOf p rest, q.length ≤ p.length ∧ (q.length = p.length → q ∈ rest) := by
        intro q hq
        rcases (mem_neededOf p rest q).1 hq with hq | ⟨hd, rfl⟩
        · exact ⟨hsort.1 q hq, fun _ => hq⟩
        · have := derivative_length p
          have h1 := List.length_pos_iff.2 hd
          exact ⟨by omega, fun h => by omega⟩
      refine nf_bind (nf_expandContext h0 _ _) fun er her => ?_
      refine nf_bind (nf_mapM _ fun e he => ?_) fun rs _ => nf_ok _
      obtain ⟨hel, hec⟩ := expandContext_length h0 _ _ _ her e he
      have hple : ∀ r ∈ e.2.1, r.length ≤ p.length ∧ (r.length = p.length → r ∈ rest) := by
        intro r hr
        obtain ⟨q, hq, hc⟩ := hec r hr
        have := hnle q hq
        rcases hc with rfl | hc
        · exact this
        · exact ⟨by omega, fun h => by omega⟩
      apply nf_chContext
      intro rems hr
      apply ih
      · have h1 := List.length_filter_le (fun p : List R => decide (p ≠ [])) (e.2.1 ++ rems)
        have h2 := mapM_ok_length _ _ hr
        have h3 := List.length_filter_le (fun g : List R => decide (0 < deg g)) e.2.1
        have h4 := length_neededOf p rest
        rw [List.length_append] at h1
        rw [List.length_cons] at hlen
        omega
      · intro q hq
        rw [List.mem_filter, List.mem_append] at hq
        rcases hq.1 with hq | hq
        · exact hple q hq
        · obtain ⟨g, hg, hg'⟩ := mapM_of_mem _ _ hr q hq
          have h1 := hple g (List.mem_filter.1 hg).1
          have h2 := pseudoRem_length h1.1 hg'
          exact ⟨by omega, fun h => by omega⟩

theorem nf_realTable {A : MAlg R} (h0 : A.hasVar 0 = false) : ∀ (d s : ℕ) (ps : List (List R)) (c : Ctx R) (fuel : ℕ),
    (∀ p ∈ ps, p.length ≤ d) → ps.length ≤ s → chDepth d s ≤ fuel → NF (realTable A fuel ps c) := by
  have hcons : ∀ ps : List (List R), ps ≠ [] → ∃ p rest, degSet ps = p :: rest := by
    intro ps hne
    obtain ⟨q, hq⟩ := List.exists_mem_of_ne_nil _ hne
    have := ((degSet_spec ps).2.2 q).2 hq
    cases h : degSet ps with
    | nil => rw [h] at this; simp at this
    | cons p rest => exact ⟨p, rest, rfl⟩
  have hnil : ∀ (fuel : ℕ) (c : Ctx R), NF (realTable A fuel [] c) := by
    intro fuel c
    cases fuel <;> exact nf_ok _
  intro d
  induction d with
  | zero =>
    intro s ps c fuel hl _ hf
    by_cases hne : ps = []
    · rw [hne]; exact hnil _ _
    obtain ⟨p, rest, hds⟩ := hcons ps hne
    obtain ⟨f, rfl⟩ : ∃ f, fuel = f + 1 := ⟨fuel - 1, by rw [chDepth] at hf; omega⟩
    refine nf_step h0 hds fun goal c' _ hg => ?_
    have : goal = [] := by
      by_contra hgn
      obtain ⟨q, hq⟩ := List.exists_mem_of_ne_nil _ hgn
      obtain ⟨hnd, _, hmem⟩ := degSet_spec ps
      rw [hds] at hnd hmem
      have hp := hl p ((hmem p).1 (by simp))
      obtain ⟨h1, h2⟩ := hg q hq
      have h3 := h2 (by omega)
      have hq0 : q = [] := List.length_eq_zero_iff.1 (by omega)
      have hp0 : p = [] := List.length_eq_zero_iff.1 (by omega)
      rw [List.nodup_cons] at hnd
      exact hnd.1 (by rw [hp0, ← hq0]; exact h3)
    rw [this]
    exact hnil _ _
  | succ d ihd =>
    have key : ∀ (k s : ℕ) (ps : List (List R)) (c : Ctx R) (fuel : ℕ), (∀ p ∈ ps, p.length ≤ d + 1) →
        cnt (d + 1) ps ≤ k → ps.length ≤ s → k + chDepth d (2 ^ k * s) ≤ fuel → NF (realTable A fuel ps c) := by
      have hlow : ∀ (k s : ℕ) (ps : List (List R)) (c : Ctx R) (fuel : ℕ), (∀ p ∈ ps, p.length ≤ d) →
          ps.length ≤ s → k + chDepth d (2 ^ k * s) ≤ fuel → NF (realTable A fuel ps c) := by
        intro k s ps c fuel hl hs hf
        refine ihd s ps c fuel hl hs (le_trans (chDepth_mono d ?_) ((Nat.le_add_left _ _).trans hf))
        exact Nat.le_mul_of_pos_left _ (by positivity)
      intro k
      induction k with
      | zero =>
        intro s ps c fuel hl hcnt hs hf
        refine hlow 0 s ps c fuel (fun p hp => ?_) hs hf
        by_contra hpd
        have : p.length = d + 1 := by have := hl p hp; omega
        unfold cnt at hcnt
        rw [Nat.le_zero, Finset.card_eq_zero] at hcnt
        have h : p ∈ (ps.filter fun p => decide (p.length = d + 1)).toFinset := by simp [hp, this]
        rw [hcnt] at h
        simp at h
      | succ k ihk =>
        intro s ps c fuel hl hcnt hs hf
        by_cases hne : ps = []
        · rw [hne]; exact hnil _ _
        obtain ⟨p, rest, hds⟩ := hcons ps hne
        obtain ⟨hnd, hsort, hmem⟩ := degSet_spec ps
        rw [hds] at hnd hsort hmem
        rw [List.nodup_cons] at hnd
        rw [List.pairwise_cons] at hsort
        have hpm : p ∈ ps := (hmem p).1 (by simp)
        by_cases hpd : p.length = d + 1
        · obtain ⟨f, rfl⟩ : ∃ f, fuel = f + 1 := ⟨fuel - 1, by omega⟩
          refine nf_step h0 hds fun goal c' hgl hg => ?_
          refine ihk (2 * s) goal c' f (fun q hq => (hg q hq).1.trans hpd.le) ?_ (hgl.trans (by omega)) ?_
          · have hsub : (goal.filter fun q => decide (q.length = d + 1)).toFinset ⊆
                (ps.filter fun q => decide (q.length = d + 1)).toFinset.erase p := by
              intro q hq
              simp only [List.mem_toFinset, List.mem_filter, decide_eq_true_eq] at hq
              have hqr := (hg q hq.1).2 (hq.2.trans hpd.symm)
              rw [Finset.mem_erase]
              refine ⟨?_, ?_⟩
              · rintro rfl; exact hnd.1 hqr
              · simp only [List.mem_toFinset, List.mem_filter, decide_eq_true_eq]
                exact ⟨(hmem q).1 (by simp [hqr]), hq.2⟩
            have h1 := Finset.card_le_card hsub
            have hpin : p ∈ (ps.filter fun q => decide (q.length = d + 1)).toFinset := by
              simp only [List.mem_toFinset, List.mem_filter, decide_eq_true_eq]
              exact ⟨hpm, hpd⟩
            rw [Finset.card_erase_of_mem hpin] at h1
            unfold cnt at hcnt ⊢
            omega
          · have : 2 ^ (k + 1) * s = 2 ^ k * (2 * s) := by ring
            rw [this] at hf
            omega
        · refine hlow (k + 1) s ps c fuel (fun q hq => ?_) hs hf
          have h1 := hl p hpm
          rcases List.mem_cons.1 ((hmem q).2 hq) with rfl | hq
          · omega
          · have := hsort.1 q hq; omega
    intro s ps c fuel hl hs hf
    rw [chDepth] at hf
    refine key s s ps c fuel hl ?_ hs hf
    unfold cnt
    refine (List.toFinset_card_le _).trans ((List.length_filter_le _ _).trans hs)

/-! ### A greater bound changes nothing -/

theorem mapM_congr_nf {α β : Type} {f g : α → Except QErr β} : ∀ l : List α, (∀ a ∈ l, NF (f a) → g a = f a) →
    NF (l.mapM f) → l.mapM g = l.mapM f := by
  intro l
  induction l with
  | nil => intro _ _; rfl
  | cons a l ih =>
    intro h hn
    rw [List.mapM_cons] at hn
    rw [List.mapM_cons, List.mapM_cons]
    have hfa : NF (f a) := fun he => hn (by rw [he]; rfl)
    rw [h a (by simp) hfa]
    cases hb : f a with
    | error e => rfl
    | ok b =>
      rw [hb] at hn
      have hl : NF (l.mapM f) := fun he => hn (by rw [he]; rfl)
      rw [ih (fun x hx => h x (by simp [hx])) hl]

theorem realTable_stable (A : MAlg R) : ∀ (f : ℕ) (ps : List (List R)) (c : Ctx R), NF (realTable A f ps c) →
    ∀ f' ≥ f, realTable A f' ps c = realTable A f ps c := by
  intro f
  induction f with
  | zero =>
    intro ps c h f' _
    cases ps with
    | nil => cases f' <;> rfl
    | cons p ps => exact absurd rfl h
  | succ f ih =>
    intro ps c h f' hf'
    obtain ⟨f', rfl⟩ : ∃ k, f' = k + 1 := ⟨f' - 1, by omega⟩
    cases ps with
    | nil => rfl
    | cons p ps =>
      unfold realTable at h ⊢
      cases hds : degSet (p :: ps) with
      | nil => rfl
      | cons m rest =>
        rw [hds] at h
        simp only [] at h ⊢
        by_cases hn : neededOf m rest = []
        · rw [if_pos hn, if_pos hn]
        · rw [if_neg hn] at h
          rw [if_neg hn, if_neg hn]
          cases he : expandContext A c (neededOf m rest) with
          | error e => rfl
          | ok er =>
            rw [he] at h
            have hm : NF (er.mapM (chContext A (realTable A f) (p :: ps) m (neededOf m rest))) :=
              fun hx => h (by simp only [bind, Except.bind, hx])
            simp only [bind, Except.bind]
            rw [mapM_congr_nf _ _ hm]
            intro e _ hne
            unfold chContext at hne ⊢
            cases hr : ((e.2.1.filter fun g => decide (0 < deg g)).mapM fun g => pseudoRem m g) with
            | error x => rfl
            | ok rems =>
              rw [hr] at hne
              have hrec : NF (realTable A f ((e.2.1 ++ rems).filter fun p => decide (p ≠ [])) e.1) :=
                fun hx => hne (by simp only [bind, Except.bind, hx])
              simp only [bind, Except.bind]
              rw [ih _ _ hrec f' (by omega)]

/-! ### The recursion is as deep as the degree -/

theorem expandContext_scalar {A : MAlg R} (hv : ∀ c, A.hasVar c = false) (c : Ctx R) : ∀ ps : List (List R),
    (∀ p ∈ ps, Canon p) → ∃ m, expandContext A c ps = .ok [(c, ps, m)] := by
  intro ps
  induction ps with
  | nil => intro _; exact ⟨[], rfl⟩
  | cons p ps ih =>
    intro h
    obtain ⟨m, hm⟩ := ih fun q hq => h q (by simp [hq])
    unfold expandContext
    rw [hm]
    simp only [bind, Except.bind]
    rw [if_pos (hv _), if_neg (by
      rintro ⟨h1, h2⟩
      exact canon_lc (h p (by simp)) h1 h2)]
    exact ⟨_, rfl⟩

theorem length_derivative [IsDomain R] [CharZero R] {p : List R} (hp : Canon p) :
    (derivative p).length = p.length - 1 := by
  have hle := derivative_length p
  by_cases hd : 0 < deg p
  · have h4 : toPoly (derivative p) ≠ 0 := by
      rw [toPoly_derivative]
      intro h
      have := Polynomial.derivative_eq_zero.1 h
      rw [natDegree_toPoly hp] at this
      omega
    have h5 : derivative p ≠ [] := fun h => h4 (by rw [h]; rfl)
    have h6 := natDegree_toPoly (derivative_canon p)
    rw [toPoly_derivative, Polynomial.natDegree_derivative, natDegree_toPoly hp] at h6
    have := List.length_pos_iff.2 h5
    unfold deg at h6 hd
    omega
  · unfold deg at hd
    omega

theorem realTable_deep [IsDomain R] [CharZero R] {A : MAlg R} (hv : ∀ c, A.hasVar c = false) : ∀ (fuel : ℕ)
    (ps : List (List R)) (c : Ctx R), (∀ p ∈ ps, Canon p) → (∃ q ∈ ps, q ≠ [] ∧ fuel ≤ deg q) →
    realTable A fuel ps c = .error .outOfFuel := by
  intro fuel
  induction fuel with
  | zero =>
    rintro ps c - ⟨q, hq, -⟩
    cases ps with
    | nil => simp at hq
    | cons p ps => rfl
  | succ fuel ih =>
    rintro ps c hc ⟨q, hq, hq0, hqd⟩
    cases ps with
    | nil => simp at hq
    | cons p0 ps =>
    unfold realTable
    obtain ⟨hnd, hsort, hmem⟩ := degSet_spec (p0 :: ps)
    cases hds : degSet (p0 :: ps) with
    | nil => rw [hds] at hmem; have := (hmem q).2 hq; simp at this
    | cons p rest =>
      rw [hds] at hnd hsort hmem
      rw [List.pairwise_cons] at hsort
      simp only []
      have hpm := (hmem p).1 (by simp)
      have hpl : q.length ≤ p.length := by
        rcases List.mem_cons.1 ((hmem q).2 hq) with rfl | h
        · exact le_rfl
        · exact hsort.1 q h
      have hpd : fuel + 1 ≤ deg p := by unfold deg at hqd ⊢; omega
      obtain ⟨hder, -⟩ := lc_derivative (hc p hpm) (show 0 < deg p by omega)
      have hdn : derivative p ∈ neededOf p rest := (mem_neededOf _ _ _).2 (Or.inr ⟨hder, rfl⟩)
      rw [if_neg (List.ne_nil_of_mem hdn)]
      have hncan : ∀ q ∈ neededOf p rest, Canon q := by
        intro q hq
        rcases (mem_neededOf p rest q).1 hq with hq | ⟨_, rfl⟩
        · exact hc q ((hmem q).1 (by simp [hq]))
        · exact derivative_canon p
      have hnle : ∀ q ∈ neededOf p rest, q.length ≤ p.length := by
        intro q hq
        rcases (mem_neededOf p rest q).1 hq with hq | ⟨_, rfl⟩
        · exact hsort.1 q hq
        · have := derivative_length p; omega
      obtain ⟨m, hm⟩ := expandContext_scalar hv c _ hncan
      rw [hm]
      simp only [bind, Except.bind]
      rw [List.mapM_cons]
      have hspec : ∀ g ∈ (neededOf p rest).filter fun g => decide (0 < deg g),
          ∃ r, pseudoRem p g = .ok r ∧ Canon r := by
        intro g hg
        simp only [List.mem_filter, decide_eq_true_eq] at hg
        obtain ⟨r, h1, h2, -⟩ := pseudoRem_ge (ne_nil_of_deg hg.2) (hncan g hg.1) (hc p hpm) (hnle g hg.1)
        exact ⟨r, h1, h2⟩
      obtain ⟨rems, hr1, -⟩ := mapM_ok (fun g => pseudoRem p g) ((neededOf p rest).filter fun g => decide (0 < deg g))
        fun g hg => by obtain ⟨r, h, -⟩ := hspec g hg; exact ⟨r, h⟩
      have : chContext A (realTable A fuel) (p0 :: ps) p (neededOf p rest) (c, neededOf p rest, m) =
          .error .outOfFuel := by
        unfold chContext
        rw [hr1]
        simp only [bind, Except.bind]
        rw [ih]
        · intro r hr
          rw [List.mem_filter, List.mem_append] at hr
          rcases hr.1 with hr | hr
          · exact hncan r hr
          · obtain ⟨g, hg, hg'⟩ := mapM_of_mem _ _ hr1 r hr
            obtain ⟨r', h1, h2⟩ := hspec g hg
            rw [hg'] at h1
            cases h1
            exact h2
        · refine ⟨derivative p, ?_, hder, ?_⟩
          · rw [List.mem_filter, List.mem_append]
            exact ⟨Or.inl hdn, by simpa using hder⟩
          · have := length_derivative (hc p hpm)
            unfold deg at hpd ⊢
            omega
      rw [this]
      rfl

end Verif.Qe
