import Verif.Qe.PartialModel
import Verif.Qe.DiagLemmas

/-!
# The assigners of the partial procedures
-/

set_option linter.unusedSectionVars false

namespace Verif.Qe

variable {R : Type} [CommRing R] [DecidableEq R] {κ : Type} [DecidableEq κ]

theorem dGet_append_absent {α β : Type} [DecidableEq α] (d : List (α × β)) (k : α) (r : β)
    (h : k ∉ d.map Prod.fst) : dGet (d ++ [(k, r)]) k = some r := by
  induction d with
  | nil => simp [dGet]
  | cons e d ih =>
    simp only [List.map_cons, List.mem_cons, not_or] at h
    have : dGet (e :: d ++ [(k, r)]) k = dGet (d ++ [(k, r)]) k := by
      simp [dGet, Ne.symm h.1]
    rw [this, ih h.2]

theorem dSet_absent {α β : Type} [DecidableEq α] (d : List (α × β)) (k : α) (r : β)
    (h : k ∉ d.map Prod.fst) : dSet d k r = d ++ [(k, r)] := by
  induction d with
  | nil => rfl
  | cons e d ih =>
    simp only [List.map_cons, List.mem_cons, not_or] at h
    unfold dSet
    rw [if_neg (Ne.symm h.1), ih h.2]; rfl

theorem dSet_last {α β : Type} [DecidableEq α] (d : List (α × β)) (k : α) (r r' : β)
    (h : k ∉ d.map Prod.fst) : dSet (d ++ [(k, r)]) k r' = d ++ [(k, r')] := by
  induction d with
  | nil => simp [dSet]
  | cons e d ih =>
    simp only [List.map_cons, List.mem_cons, not_or] at h
    rw [List.cons_append]
    unfold dSet
    rw [if_neg (Ne.symm h.1), ih h.2]; rfl

theorem dWrite_absent (D : Diagram R κ) (c : List R) (i : κ) (v : ℤ) (h : c ∉ keys D) :
    dWrite D c i v = D ++ [(c, [(i, v)])] := by
  unfold dWrite dRow
  rw [dGet_none D c h]
  exact dSet_absent D c _ h

theorem write3_absent (D : Diagram R ℚ) (c : List R) (v : ℤ) (h : c ∉ keys D) :
    write3 D c v = D ++ [(c, [(0, v), (1/2, v), (1, v)])] := by
  unfold write3
  rw [dWrite_absent D c 0 v h]
  have h1 : dWrite (D ++ [(c, [((0 : ℚ), v)])]) c (1/2) v = D ++ [(c, [(0, v), (1/2, v)])] := by
    unfold dWrite dRow
    rw [dGet_append_absent D c _ h, dSet_last D c _ _ h]
    norm_num [dSet]
  have h2 : dWrite (D ++ [(c, [((0 : ℚ), v), (1/2, v)])]) c 1 v = D ++ [(c, [(0, v), (1/2, v), (1, v)])] := by
    unfold dWrite dRow
    rw [dGet_append_absent D c _ h, dSet_last D c _ _ h]
    norm_num [dSet]
  rw [h1, h2]

theorem foldl_dWrite (i : κ) (f : List R → ℤ) : ∀ (cs : List (List R)) (D : Diagram R κ), cs.Nodup →
    (∀ c ∈ cs, c ∉ keys D) →
    cs.foldl (fun D c => dWrite D c i (f c)) D = D ++ cs.map fun c => (c, [(i, f c)])
  | [], D, _, _ => by simp
  | c :: cs, D, hn, hd => by
    rw [List.nodup_cons] at hn
    rw [List.foldl_cons, dWrite_absent D c i _ (hd c (by simp)), foldl_dWrite i f cs _ hn.2]
    · simp
    · intro c' hc'
      simp only [keys, List.map_append, List.map_cons, List.map_nil, List.mem_append, List.mem_singleton, not_or]
      exact ⟨hd c' (by simp [hc']), fun e => hn.1 (e ▸ hc')⟩

theorem foldl_write3_map (f : List R → ℤ) : ∀ (cs : List (List R)) (D : Diagram R ℚ), cs.Nodup →
    (∀ c ∈ cs, c ∉ keys D) →
    cs.foldl (fun D c => write3 D c (f c)) D = D ++ cs.map fun c => (c, [(0, f c), (1/2, f c), (1, f c)])
  | [], D, _, _ => by simp
  | c :: cs, D, hn, hd => by
    rw [List.nodup_cons] at hn
    rw [List.foldl_cons, write3_absent D c _ (hd c (by simp)), foldl_write3_map f cs _ hn.2]
    · simp
    · intro c' hc'
      simp only [keys, List.map_append, List.map_cons, List.map_nil, List.mem_append, List.mem_singleton, not_or]
      exact ⟨hd c' (by simp [hc']), fun e => hn.1 (e ▸ hc')⟩

theorem dRow_map (g : List R → List (κ × ℤ)) (cs : List (List R)) (c : List R) (hc : c ∈ cs) :
    dRow (cs.map fun c => (c, g c)) c = g c := by
  unfold dRow
  induction cs with
  | nil => simp at hc
  | cons a cs ih =>
    by_cases h : a = c
    · subst h; simp [dGet]
    · have : dGet ((a :: cs).map fun c => (c, g c)) c = dGet (cs.map fun c => (c, g c)) c := by simp [dGet, h]
      rw [this]
      exact ih (by simpa [Ne.symm h] using hc)

theorem interactiveValue_nil {allowed : List (String × ℤ)} {lines : List String}
    (h : lines.filterMap (allowed.lookup ·) = []) : interactiveValue allowed lines = .error .eofError := by
  induction lines with
  | nil => rfl
  | cons v rest ih =>
    unfold interactiveValue
    rw [List.filterMap_cons] at h
    cases e : allowed.lookup v with
    | none => rw [e] at h; exact ih h
    | some z => rw [e] at h; simp at h

theorem interactiveValue_cons {allowed : List (String × ℤ)} {lines : List String} {a : ℤ} {as : List ℤ}
    (h : lines.filterMap (allowed.lookup ·) = a :: as) :
    ∃ rest, interactiveValue allowed lines = .ok (a, rest) ∧ rest.filterMap (allowed.lookup ·) = as := by
  induction lines with
  | nil => simp at h
  | cons v rest ih =>
    unfold interactiveValue
    rw [List.filterMap_cons] at h
    cases e : allowed.lookup v with
    | none => rw [e] at h; exact ih h
    | some z =>
      rw [e] at h
      simp only [List.cons.injEq] at h
      obtain ⟨rfl, h⟩ := h
      exact ⟨rest, rfl, h⟩

/-- The common shape of the two interactive assigners. -/
def interLoop (A : MAlg R) (allowed : List (String × ℤ)) (w : Diagram R κ → List R → ℤ → Diagram R κ)
    (sca : List R → ℤ) : List (List R) → List String → Diagram R κ → Except PErr (Diagram R κ)
  | [], _, D => .ok D
  | c :: cs, lines, D =>
    if hasVariable A c then
      match interactiveValue allowed lines with
      | .error e => .error e
      | .ok (v, rest) => interLoop A allowed w sca cs rest (w D c v)
    else interLoop A allowed w sca cs lines (w D c (sca c))

theorem cInteractiveLoop_eq (A : MAlg R) : ∀ (cs : List (List R)) (lines : List String) (D : Diagram R ℕ),
    cInteractiveLoop A cs lines D = interLoop A [("0", 0), ("1", 1)] (fun D c v => dWrite D c 0 v)
      (fun c => if c = [] then 0 else 1) cs lines D
  | [], _, _ => rfl
  | c :: cs, lines, D => by
    unfold cInteractiveLoop interLoop
    by_cases h : c = []
    · subst h
      simp only [if_true, hasVariable]
      exact cInteractiveLoop_eq A cs _ _
    · rw [if_neg h]
      by_cases hv : hasVariable A c
      · rw [if_pos hv, if_pos hv]
        cases interactiveValue [("0", 0), ("1", 1)] lines with
        | error e => rfl
        | ok r => exact cInteractiveLoop_eq A cs _ _
      · rw [if_neg hv, if_neg hv, if_neg h]
        exact cInteractiveLoop_eq A cs _ _

theorem rInteractiveLoop_eq (A : MAlg R) : ∀ (cs : List (List R)) (lines : List String) (D : Diagram R ℚ),
    rInteractiveLoop A cs lines D = interLoop A [("-1", -1), ("0", 0), ("1", 1)] write3
      (fun c => A.sign (c.headD 0)) cs lines D
  | [], _, _ => rfl
  | c :: cs, lines, D => by
    unfold rInteractiveLoop interLoop
    by_cases hv : hasVariable A c
    · rw [if_pos hv, if_pos hv]
      cases interactiveValue [("-1", -1), ("0", 0), ("1", 1)] lines with
      | error e => rfl
      | ok r => exact rInteractiveLoop_eq A cs _ _
    · rw [if_neg hv, if_neg hv]
      exact rInteractiveLoop_eq A cs _ _

theorem interLoop_ok (A : MAlg R) (allowed : List (String × ℤ)) (w : Diagram R κ → List R → ℤ → Diagram R κ)
    (sca : List R → ℤ) : ∀ (cs : List (List R)) (lines : List String) (D : Diagram R κ), cs.Nodup →
    (cs.filter fun c => hasVariable A c).length ≤ (lines.filterMap (allowed.lookup ·)).length →
    ∃ g : List R → ℤ,
      (∀ e ∈ (cs.filter fun c => hasVariable A c).zip (lines.filterMap (allowed.lookup ·)), g e.1 = e.2) ∧
      (∀ c ∈ cs, hasVariable A c = false → g c = sca c) ∧
      interLoop A allowed w sca cs lines D = .ok (cs.foldl (fun D c => w D c (g c)) D)
  | [], lines, D, _, _ => ⟨fun _ => 0, by simp, by simp, rfl⟩
  | c :: cs, lines, D, hn, hl => by
    rw [List.nodup_cons] at hn
    unfold interLoop
    by_cases hv : hasVariable A c = true
    · rw [if_pos hv]
      rw [List.filter_cons_of_pos hv] at hl ⊢
      cases ha : lines.filterMap (allowed.lookup ·) with
      | nil => rw [ha] at hl; simp at hl
      | cons a as =>
        obtain ⟨rest, e1, e2⟩ := interactiveValue_cons ha
        rw [ha] at hl
        rw [e1]
        obtain ⟨g, h1, h2, h3⟩ := interLoop_ok A allowed w sca cs rest (w D c a) hn.2 (by
          rw [e2]; simpa using hl)
        rw [e2] at h1
        refine ⟨Function.update g c a, ?_, ?_, ?_⟩
        · intro e he
          rw [List.zip_cons_cons, List.mem_cons] at he
          rcases he with rfl | he
          · simp
          · have : e.1 ∈ cs := List.mem_of_mem_filter (List.of_mem_zip he).1
            rw [Function.update_of_ne (show e.1 ≠ c from fun e' => hn.1 (e' ▸ this))]
            exact h1 e he
        · intro c' hc' hv'
          have hne : c' ≠ c := fun e => by rw [e, hv] at hv'; cases hv'
          rw [Function.update_of_ne hne]
          exact h2 c' (by simpa [hne] using hc') hv'
        · show interLoop A allowed w sca cs rest (w D c a) = _
          rw [h3, List.foldl_cons, Function.update_self]
          congr 1
          apply List.foldl_ext
          intro D' c' hc'
          rw [Function.update_of_ne (show c' ≠ c from fun e' => hn.1 (e' ▸ hc'))]
    · have hv' : hasVariable A c = false := by simpa using hv
      rw [if_neg hv]
      rw [List.filter_cons_of_neg hv] at hl ⊢
      obtain ⟨g, h1, h2, h3⟩ := interLoop_ok A allowed w sca cs lines (w D c (sca c)) hn.2 hl
      refine ⟨Function.update g c (sca c), ?_, ?_, ?_⟩
      · intro e he
        have : e.1 ∈ cs := List.mem_of_mem_filter (List.of_mem_zip he).1
        rw [Function.update_of_ne (show e.1 ≠ c from fun e' => hn.1 (e' ▸ this))]
        exact h1 e he
      · intro c' hc' hv''
        by_cases hcc : c' = c
        · subst hcc; simp
        · rw [Function.update_of_ne hcc]
          exact h2 c' (by simpa [hcc] using hc') hv''
      · rw [h3, List.foldl_cons, Function.update_self]
        congr 1
        apply List.foldl_ext
        intro D' c' hc'
        rw [Function.update_of_ne (show c' ≠ c from fun e' => hn.1 (e' ▸ hc'))]

theorem interLoop_eof (A : MAlg R) (allowed : List (String × ℤ)) (w : Diagram R κ → List R → ℤ → Diagram R κ)
    (sca : List R → ℤ) : ∀ (cs : List (List R)) (lines : List String) (D : Diagram R κ),
    (lines.filterMap (allowed.lookup ·)).length < (cs.filter fun c => hasVariable A c).length →
    interLoop A allowed w sca cs lines D = .error .eofError
  | [], lines, D, hl => by simp at hl
  | c :: cs, lines, D, hl => by
    unfold interLoop
    by_cases hv : hasVariable A c = true
    · rw [if_pos hv]
      rw [List.filter_cons_of_pos hv] at hl
      cases ha : lines.filterMap (allowed.lookup ·) with
      | nil => rw [interactiveValue_nil ha]
      | cons a as =>
        obtain ⟨rest, e1, e2⟩ := interactiveValue_cons ha
        rw [ha] at hl
        rw [e1]
        exact interLoop_eof A allowed w sca cs rest _ (by rw [e2]; simpa using hl)
    · rw [if_neg hv]
      rw [List.filter_cons_of_neg hv] at hl
      exact interLoop_eof A allowed w sca cs lines _ hl

end Verif.Qe
