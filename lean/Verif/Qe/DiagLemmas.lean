import Verif.Qe.SeqLemmas
import Verif.Qe.PropsCache

/-!
# Reading and writing diagrams
-/

set_option linter.unusedSectionVars false

namespace Verif.Qe

variable {R : Type} [CommRing R] [DecidableEq R] {κ : Type} [DecidableEq κ]

/-- value of a cell -/
def cv (D : Diagram R κ) (q : List R) (i : κ) : ℤ :=
  ((dGet D q).bind fun row => dGet row i).getD 0

/-- columns of a row -/
def ck (D : Diagram R κ) (q : List R) : List κ := (dRow D q).map Prod.fst

/-- rows -/
def keys (D : Diagram R κ) : List (List R) := D.map Prod.fst

theorem dGet_isSome {α β : Type} [DecidableEq α] (d : List (α × β)) (k : α) :
    k ∈ d.map Prod.fst ↔ ∃ v, dGet d k = some v := by
  induction d with
  | nil => simp [dGet]
  | cons e d ih =>
    by_cases h : e.1 = k
    · simp [dGet, h]
    · have : dGet (e :: d) k = dGet d k := by simp [dGet, h]
      rw [this, ← ih, List.map_cons, List.mem_cons]
      constructor
      · rintro (h' | h')
        · exact absurd h'.symm h
        · exact h'
      · exact Or.inr

theorem dGet_none {α β : Type} [DecidableEq α] (d : List (α × β)) (k : α) (h : k ∉ d.map Prod.fst) :
    dGet d k = none := by
  cases h' : dGet d k with
  | none => rfl
  | some v => exact absurd ((dGet_isSome d k).2 ⟨v, h'⟩) h

theorem keys_dSet {α β : Type} [DecidableEq α] (d : List (α × β)) (k : α) (v : β) :
    (dSet d k v).map Prod.fst =
      if k ∈ d.map Prod.fst then d.map Prod.fst else d.map Prod.fst ++ [k] := by
  induction d with
  | nil => simp [dSet]
  | cons e d ih =>
    unfold dSet
    by_cases h : e.1 = k
    · simp [h]
    · rw [if_neg h, List.map_cons, ih]
      by_cases h2 : k ∈ d.map Prod.fst
      · rw [if_pos h2, if_pos (by rw [List.map_cons]; exact List.mem_cons_of_mem _ h2)]; rfl
      · rw [if_neg h2, if_neg]
        · rfl
        · rw [List.map_cons, List.mem_cons]
          rintro (h' | h')
          · exact h h'.symm
          · exact h2 h'

theorem mem_keys_dSet {α β : Type} [DecidableEq α] (d : List (α × β)) (k k' : α) (v : β) :
    k' ∈ (dSet d k v).map Prod.fst ↔ k' = k ∨ k' ∈ d.map Prod.fst := by
  rw [keys_dSet]
  split
  · rename_i h
    constructor
    · exact Or.inr
    · rintro (rfl | h')
      · exact h
      · exact h'
  · rw [List.mem_append, List.mem_singleton]; tauto

theorem nodup_keys_dSet {α β : Type} [DecidableEq α] (d : List (α × β)) (k : α) (v : β)
    (h : (d.map Prod.fst).Nodup) : ((dSet d k v).map Prod.fst).Nodup := by
  rw [keys_dSet]
  split
  · exact h
  · rename_i h'
    rw [List.nodup_append]
    exact ⟨h, by simp, by
      intro a ha b hb
      rw [List.mem_singleton] at hb
      subst hb
      rintro rfl
      exact h' ha⟩

theorem mem_keys_of_ck {D : Diagram R κ} {q : List R} {i : κ} (h : i ∈ ck D q) : q ∈ keys D := by
  unfold ck dRow at h
  unfold keys
  rw [dGet_isSome]
  cases h' : dGet D q with
  | none => rw [h'] at h; simp at h
  | some v => exact ⟨v, rfl⟩

theorem dRead_ok {D : Diagram R κ} {q : List R} {i : κ} (h : i ∈ ck D q) :
    dRead D q i = .ok (cv D q i) := by
  unfold ck dRow at h
  unfold dRead cv
  cases h' : dGet D q with
  | none => rw [h'] at h; simp at h
  | some row =>
    rw [h'] at h
    obtain ⟨v, hv⟩ := (dGet_isSome row i).1 h
    simp [hv]

theorem dRead_err {D : Diagram R κ} {q : List R} {i : κ} (h : i ∉ ck D q) :
    dRead D q i = .error .keyError := by
  unfold ck dRow at h
  unfold dRead
  cases h' : dGet D q with
  | none => rfl
  | some row =>
    rw [h'] at h
    have : dGet row i = none := dGet_none _ _ h
    simp [this]

theorem dRow_dWrite (D : Diagram R κ) (q q' : List R) (i : κ) (v : ℤ) :
    dRow (dWrite D q i v) q' = if q = q' then dSet (dRow D q) i v else dRow D q' := by
  unfold dWrite
  rw [dRow, dGet_dSet]
  split
  · rfl
  · rfl

theorem cv_eq_dRow (D : Diagram R κ) (q : List R) (i : κ) :
    cv D q i = (dGet (dRow D q) i).getD 0 := by
  unfold cv dRow
  cases dGet D q with
  | none => simp [dGet]
  | some row => rfl

theorem cv_dWrite (D : Diagram R κ) (q q' : List R) (i j : κ) (v : ℤ) :
    cv (dWrite D q i v) q' j = if q' = q ∧ j = i then v else cv D q' j := by
  rw [cv_eq_dRow, dRow_dWrite, cv_eq_dRow]
  by_cases h : q = q'
  · subst h
    rw [if_pos rfl, dGet_dSet]
    by_cases h2 : i = j
    · subst h2; simp
    · rw [if_neg h2, if_neg (by rintro ⟨_, rfl⟩; exact h2 rfl)]
  · rw [if_neg h, if_neg (by rintro ⟨rfl, _⟩; exact h rfl)]

theorem mem_ck_dWrite (D : Diagram R κ) (q q' : List R) (i j : κ) (v : ℤ) :
    j ∈ ck (dWrite D q i v) q' ↔ j ∈ ck D q' ∨ (q' = q ∧ j = i) := by
  unfold ck
  rw [dRow_dWrite]
  split
  · rename_i h
    subst h
    rw [mem_keys_dSet]; tauto
  · rename_i h
    constructor
    · exact Or.inl
    · rintro (h' | ⟨rfl, _⟩)
      · exact h'
      · exact absurd rfl h

theorem nodup_ck_dWrite (D : Diagram R κ) (q : List R) (i : κ) (v : ℤ)
    (h : ∀ q', (ck D q').Nodup) (q' : List R) : (ck (dWrite D q i v) q').Nodup := by
  unfold ck
  rw [dRow_dWrite]
  split
  · exact nodup_keys_dSet _ _ _ (h q)
  · exact h q'

theorem mem_keys_dWrite (D : Diagram R κ) (q q' : List R) (i : κ) (v : ℤ) :
    q' ∈ keys (dWrite D q i v) ↔ q' = q ∨ q' ∈ keys D := mem_keys_dSet _ _ _ _

theorem keys_dWrite_mem (D : Diagram R κ) (q : List R) (i : κ) (v : ℤ) (h : q ∈ keys D) :
    keys (dWrite D q i v) = keys D := by
  unfold keys dWrite at *
  rw [keys_dSet, if_pos h]

theorem dTouch_mem (D : Diagram R κ) (q : List R) (h : q ∈ keys D) : dTouch D q = D := by
  unfold dTouch
  obtain ⟨v, hv⟩ := (dGet_isSome D q).1 h
  rw [hv]

theorem colZeros_ok (D : Diagram R κ) (z col : κ) (rest : List (List R))
    (h : ∀ q ∈ rest, col ∈ ck D q ∧ z ∈ ck D q) :
    colZeros D z col rest = .ok (rest.filter fun q => decide (cv D q col = 0) && decide (cv D q z ≠ 0)) := by
  unfold colZeros
  apply filterM_ok (g := fun q => decide (cv D q col = 0) && decide (cv D q z ≠ 0))
  intro q hq
  rw [dRead_ok (h q hq).1, dRead_ok (h q hq).2]
  rfl

/-- What is known of a diagram after some cells have been written. -/
structure Written (D D' : Diagram R κ) (W : List R → κ → Prop) (f : List R → κ → ℤ) : Prop where
  val : ∀ q i, W q i → cv D' q i = f q i
  old : ∀ q i, ¬ W q i → cv D' q i = cv D q i
  ck : ∀ q i, i ∈ ck D' q ↔ i ∈ ck D q ∨ W q i
  keys : ∀ q, q ∈ keys D' ↔ q ∈ keys D ∨ ∃ i, W q i
  nodup : (∀ q, (Verif.Qe.ck D q).Nodup) → ∀ q, (Verif.Qe.ck D' q).Nodup

theorem Written.refl (D : Diagram R κ) (f : List R → κ → ℤ) : Written D D (fun _ _ => False) f :=
  ⟨by simp, by simp, by simp, by simp, id⟩

theorem Written.write {D D' : Diagram R κ} {W : List R → κ → Prop} {f : List R → κ → ℤ}
    (h : Written D D' W f) (q : List R) (i : κ) (v : ℤ) (hv : v = f q i) :
    Written D (dWrite D' q i v) (fun q' j => W q' j ∨ (q' = q ∧ j = i)) f := by
  refine ⟨?_, ?_, ?_, ?_, ?_⟩
  · intro q' j hW
    rw [cv_dWrite]
    split
    · rename_i h'; rw [h'.1, h'.2, hv]
    · rename_i h'; exact h.val q' j (hW.resolve_right h')
  · intro q' j hW
    rw [cv_dWrite, if_neg fun h' => hW (Or.inr h')]
    exact h.old q' j fun h' => hW (Or.inl h')
  · intro q' j
    rw [mem_ck_dWrite, h.ck]; tauto
  · intro q'
    rw [mem_keys_dWrite, h.keys]
    constructor
    · rintro (rfl | h' | ⟨j, hj⟩)
      · exact Or.inr ⟨i, Or.inr ⟨rfl, rfl⟩⟩
      · exact Or.inl h'
      · exact Or.inr ⟨j, Or.inl hj⟩
    · rintro (h' | ⟨j, hj | ⟨rfl, _⟩⟩)
      · exact Or.inr (Or.inl h')
      · exact Or.inr (Or.inr ⟨j, hj⟩)
      · exact Or.inl rfl
  · intro hn
    exact nodup_ck_dWrite D' q i v (h.nodup hn)

theorem Written.congr {D D' : Diagram R κ} {W W' : List R → κ → Prop} {f f' : List R → κ → ℤ}
    (h : Written D D' W f) (hW : ∀ q i, W q i ↔ W' q i) (hf : ∀ q i, W' q i → f q i = f' q i) :
    Written D D' W' f' := by
  refine ⟨?_, ?_, ?_, ?_, h.nodup⟩
  · intro q i hw; rw [← hf q i hw]; exact h.val q i ((hW q i).2 hw)
  · intro q i hw; exact h.old q i fun h' => hw ((hW q i).1 h')
  · intro q i; rw [h.ck, hW]
  · intro q; rw [h.keys]; simp only [hW]

/-- loop rule: a loop that writes cells -/
theorem foldlM_written {α : Type} (step : Diagram R κ → α → Except QErr (Diagram R κ))
    (W : α → List R → κ → Prop) (f : List R → κ → ℤ) (D : Diagram R κ) (l : List α)
    (hstep : ∀ (done : List α) (D' : Diagram R κ) (a : α), a ∈ l →
      Written D D' (fun q i => ∃ b ∈ done, W b q i) f → (∀ b ∈ done, b ∈ l) →
      ∃ D'', step D' a = .ok D'' ∧ Written D D'' (fun q i => ∃ b ∈ done ++ [a], W b q i) f) :
    ∃ D', l.foldlM step D = .ok D' ∧ Written D D' (fun q i => ∃ b ∈ l, W b q i) f := by
  have := foldlM_inv step
    (fun done D' => Written D D' (fun q i => ∃ b ∈ done, W b q i) f ∧ ∀ b ∈ done, b ∈ l) l [] D
    ⟨(Written.refl D f).congr (by simp) (by simp), by simp⟩ (by
      intro done a D' h ha
      obtain ⟨D'', h1, h2⟩ := hstep done D' a ha h.1 h.2
      refine ⟨D'', h1, h2, ?_⟩
      intro b hb
      rcases List.mem_append.1 hb with hb | hb
      · exact h.2 b hb
      · rw [List.mem_singleton] at hb; subst hb; exact ha)
  obtain ⟨D', h1, h2⟩ := this
  exact ⟨D', h1, by simpa using h2.1⟩

theorem copyTail_ok (D : Diagram R κ) (p : List R) (htail : pTail p ∈ keys D) (hne : pTail p ≠ p) :
    ∃ D', copyTail D p = .ok D' ∧
      Written D D' (fun q i => q = p ∧ i ∈ ck D (pTail p)) (fun _ i => cv D (pTail p) i) := by
  unfold copyTail
  simp only [dTouch_mem D _ htail]
  obtain ⟨D', h1, h2⟩ := foldlM_written (κ := κ)
    (fun D' col => do
      let v ← dRead D' (pTail p) col
      .ok (dWrite D' p col v)) (fun b q i => q = p ∧ i = b) (fun _ i => cv D (pTail p) i) D
    (ck D (pTail p)) (by
      intro done D' a ha hW hd
      have hck : a ∈ ck D' (pTail p) := (hW.ck _ _).2 (Or.inl ha)
      refine ⟨dWrite D' p a (cv D (pTail p) a), ?_, ?_⟩
      · simp only [dRead_ok hck]
        rw [hW.old _ _ (by rintro ⟨b, _, h, _⟩; exact hne h)]
        rfl
      · refine (hW.write p a _ rfl).congr ?_ (fun _ _ _ => rfl)
        intro q i
        simp only [List.mem_append, List.mem_singleton]
        constructor
        · rintro (⟨b, hb, h⟩ | ⟨rfl, rfl⟩)
          · exact ⟨b, Or.inl hb, h⟩
          · exact ⟨_, Or.inr rfl, rfl, rfl⟩
        · rintro ⟨b, hb | rfl, h⟩
          · exact Or.inl ⟨b, hb, h⟩
          · exact Or.inr h)
  refine ⟨D', h1, h2.congr ?_ (fun _ _ _ => rfl)⟩
  intro q i
  constructor
  · rintro ⟨b, hb, rfl, rfl⟩; exact ⟨rfl, hb⟩
  · rintro ⟨rfl, hi⟩; exact ⟨i, hi, rfl, rfl⟩

end Verif.Qe
