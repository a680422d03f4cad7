import Verif.Qe.MuchnikModel
import Verif.Qe.PolyLemmas
import Mathlib.Logic.Hydra
import Mathlib.Tactic.Linarith

/-!
# The Muchnik sequence: termination and closure
-/

set_option linter.unusedSectionVars false

namespace Verif.Qe

section Except
variable {ε α β : Type}

theorem mapM_ok (f : α → Except ε β) : ∀ l : List α, (∀ a ∈ l, ∃ b, f a = .ok b) →
    ∃ bs, l.mapM f = .ok bs ∧ List.Forall₂ (fun a b => f a = .ok b) l bs := by
  intro l
  induction l with
  | nil => intro _; exact ⟨[], rfl, .nil⟩
  | cons a l ih =>
    intro h
    obtain ⟨b, hb⟩ := h a (by simp)
    obtain ⟨bs, h1, h2⟩ := ih fun x hx => h x (by simp [hx])
    refine ⟨b :: bs, ?_, .cons hb h2⟩
    rw [List.mapM_cons, hb, h1]
    rfl

theorem filterM_ok (f : α → Except ε Bool) (g : α → Bool) (l : List α)
    (h : ∀ a ∈ l, f a = .ok (g a)) : l.filterM f = .ok (l.filter g) := by
  have aux : ∀ (l acc : List α), (∀ a ∈ l, f a = .ok (g a)) →
      l.filterAuxM f acc = .ok ((l.filter g).reverse ++ acc) := by
    intro l
    induction l with
    | nil => intro acc _; rfl
    | cons a l ih =>
      intro acc h
      have ih := ih (cond (g a) (a :: acc) acc) fun x hx => h x (by simp [hx])
      show (do let b ← f a; List.filterAuxM f l (cond b (a :: acc) acc)) = _
      rw [h a (by simp)]
      show List.filterAuxM f l (cond (g a) (a :: acc) acc) = _
      rw [ih]
      cases hg : g a <;> simp [hg]
  show (do let as ← List.filterAuxM f l []; pure as.reverse) = _
  rw [aux l [] h]
  show Except.ok _ = _
  simp

theorem foldlM_append_ok {σ : Type} (f : σ → α → Except ε σ) (s s' : σ) (l m : List α)
    (h : l.foldlM f s = .ok s') : (l ++ m).foldlM f s = m.foldlM f s' := by
  rw [List.foldlM_append, h]; rfl

/-- loop rule for `foldlM` -/
theorem foldlM_inv {σ : Type} (f : σ → α → Except ε σ) (I : List α → σ → Prop) :
    ∀ (l done : List α) (s : σ), I done s →
    (∀ done a s, I done s → a ∈ l → ∃ s', f s a = .ok s' ∧ I (done ++ [a]) s') →
    ∃ s', l.foldlM f s = .ok s' ∧ I (done ++ l) s' := by
  intro l
  induction l with
  | nil => intro done s h _; exact ⟨s, rfl, by simpa using h⟩
  | cons a l ih =>
    intro done s h hstep
    obtain ⟨s1, h1, h2⟩ := hstep done a s h (by simp)
    obtain ⟨s2, h3, h4⟩ := ih (done ++ [a]) s1 h2 fun d x s hI hx => hstep d x s hI (by simp [hx])
    refine ⟨s2, ?_, by simpa using h4⟩
    rw [List.foldlM_cons, h1]
    exact h3

end Except

variable {R : Type} [CommRing R] [DecidableEq R]

theorem mem_sortedAdd (A : MAlg R) (p q : List R) (l : List (List R)) :
    q ∈ sortedAdd A p l ↔ q = p ∨ q ∈ l := by
  induction l with
  | nil => simp [sortedAdd]
  | cons a l ih =>
    unfold sortedAdd
    split
    · simp
    · simp only [List.mem_cons, ih]; tauto

theorem polyKey_head (A : MAlg R) (p : List R) : ∃ l, polyKey A p = (deg p : ℚ) :: l := by
  have : ∀ n, ∃ l, (polyKeyAux A n p).1 = (deg p : ℚ) :: l ∨ n = 0 := by
    intro n
    cases n with
    | zero => exact ⟨[], Or.inr rfl⟩
    | succ n =>
      unfold polyKeyAux
      split
      · rename_i h; exact ⟨[], Or.inl (by rw [h]; simp)⟩
      · exact ⟨_, Or.inl rfl⟩
  unfold polyKey
  simp only
  by_cases hp : p.length = 0
  · have : p = [] := List.length_eq_zero_iff.1 hp
    subst this
    exact ⟨[A.LS []], by simp [polyKeyAux, deg]⟩
  · obtain ⟨l, h | h⟩ := this p.length
    · exact ⟨l ++ _, by rw [h]; rfl⟩
    · exact absurd h hp

theorem listLt_deg (A : MAlg R) {p q : List R} (h : listLt (polyKey A p) (polyKey A q) = true) :
    deg p ≤ deg q := by
  obtain ⟨l, hl⟩ := polyKey_head A p
  obtain ⟨m, hm⟩ := polyKey_head A q
  rw [hl, hm] at h
  unfold listLt at h
  split at h
  · rename_i h'; exact le_of_lt (by exact_mod_cast h')
  · rename_i h1
    split at h
    · simp at h
    · rename_i h2
      have : (deg p : ℚ) ≤ deg q := le_of_not_gt h2
      exact_mod_cast this

theorem listLt_deg' (A : MAlg R) {p q : List R}
    (h : ¬ listLt (polyKey A p) (polyKey A q) = true) : deg q ≤ deg p := by
  obtain ⟨l, hl⟩ := polyKey_head A p
  obtain ⟨m, hm⟩ := polyKey_head A q
  rw [hl, hm] at h
  unfold listLt at h
  split at h
  · simp at h
  · rename_i h1
    have : (deg q : ℚ) ≤ deg p := le_of_not_gt h1
    exact_mod_cast this

theorem sortedAdd_pairwise (A : MAlg R) (p : List R) (l : List (List R))
    (h : l.Pairwise fun a b => deg a ≤ deg b) :
    (sortedAdd A p l).Pairwise fun a b => deg a ≤ deg b := by
  induction l with
  | nil => simp [sortedAdd]
  | cons a l ih =>
    rw [List.pairwise_cons] at h
    unfold sortedAdd
    split
    · rename_i hlt
      have := listLt_deg A hlt
      rw [List.pairwise_cons, List.pairwise_cons]
      refine ⟨?_, h⟩
      intro b hb
      rcases List.mem_cons.1 hb with rfl | hb
      · exact this
      · exact this.trans (h.1 b hb)
    · rename_i hlt
      have := listLt_deg' A hlt
      rw [List.pairwise_cons]
      refine ⟨?_, ih h.2⟩
      intro b hb
      rcases (mem_sortedAdd A p b l).1 hb with rfl | hb
      · exact this
      · exact h.1 b hb

theorem sortedAdd_nodup (A : MAlg R) (p : List R) (l : List (List R)) (h : l.Nodup)
    (hp : p ∉ l) : (sortedAdd A p l).Nodup := by
  induction l with
  | nil => simp [sortedAdd]
  | cons a l ih =>
    rw [List.nodup_cons] at h
    simp only [List.mem_cons, not_or] at hp
    unfold sortedAdd
    split
    · rw [List.nodup_cons, List.nodup_cons]
      exact ⟨by simp [hp.1, hp.2], h⟩
    · rw [List.nodup_cons]
      refine ⟨?_, ih h.2 hp.2⟩
      rw [mem_sortedAdd]
      rintro (h' | h')
      · exact hp.1 h'.symm
      · exact h.1 h'

/-- The minimal polynomial of a nonempty set has minimal degree. -/
theorem minPoly_spec (A : MAlg R) (l : List (List R)) (h : l ≠ []) :
    ∃ q, minPoly A l = some q ∧ q ∈ l ∧ ∀ q' ∈ l, deg q ≤ deg q' := by
  have key : ∀ (l acc : List (List R)), (acc.Pairwise fun a b => deg a ≤ deg b) →
      ((l.foldl (fun acc q => sortedAdd A q acc) acc).Pairwise fun a b => deg a ≤ deg b) ∧
      ∀ q, q ∈ l.foldl (fun acc q => sortedAdd A q acc) acc ↔ q ∈ acc ∨ q ∈ l := by
    intro l
    induction l with
    | nil => intro acc h; exact ⟨h, by simp⟩
    | cons a l ih =>
      intro acc h
      obtain ⟨h1, h2⟩ := ih (sortedAdd A a acc) (sortedAdd_pairwise A a acc h)
      refine ⟨h1, fun q => ?_⟩
      rw [List.foldl_cons, h2, mem_sortedAdd, List.mem_cons]
      tauto
  obtain ⟨h1, h2⟩ := key l [] List.Pairwise.nil
  unfold minPoly
  generalize l.foldl (fun acc q => sortedAdd A q acc) [] = L at h1 h2
  cases L with
  | nil =>
    obtain ⟨a, ha⟩ := List.exists_mem_of_ne_nil l h
    have := (h2 a).2 (Or.inr ha)
    simp at this
  | cons a L =>
    rw [List.pairwise_cons] at h1
    refine ⟨a, rfl, ?_, ?_⟩
    · have := (h2 a).1 (by simp)
      simpa using this
    · intro q' hq'
      have := (h2 q').2 (Or.inr hq')
      rcases List.mem_cons.1 this with rfl | h'
      · exact le_rfl
      · exact h1.1 q' h'

theorem minPoly_nil (A : MAlg R) : minPoly A [] = none := rfl

/-- Closure of a set of polynomials, except for elements still to be processed. -/
structure SeqInv (done todo : List (List R)) : Prop where
  zero : [] ∈ done
  canon : ∀ p ∈ done, Canon p
  canonTodo : ∀ p ∈ todo, Canon p
  tail : ∀ p ∈ done, pTail p ∈ done ∨ pTail p ∈ todo
  der : ∀ p ∈ done, derivative p ∈ done ∨ derivative p ∈ todo
  rem : ∀ p ∈ done, ∀ q ∈ done, p ≠ q → 0 < deg q → deg q ≤ deg p →
    ∃ r, pseudoRem p q = .ok r ∧ (r ∈ done ∨ r ∈ todo)
  sorted : done.Pairwise fun a b => deg a ≤ deg b
  nodup : done.Nodup

theorem length_le_of_deg {p q : List R} (h : 0 < deg p) (h' : deg p ≤ deg q) :
    p.length ≤ q.length := by
  unfold deg at h h'; omega

theorem ne_nil_of_deg {p : List R} (h : 0 < deg p) : p ≠ [] := by
  rintro rfl; simp [deg] at h

theorem SeqInv.step [IsDomain R] (A : MAlg R) {done rest rems : List (List R)} {head : List R}
    (h : SeqInv done (head :: rest)) (hnew : head ∉ done)
    (hremC : ∀ r ∈ rems, Canon r)
    (hle : ∀ p ∈ done, 0 < deg p → deg p ≤ deg head → ∃ r, pseudoRem head p = .ok r ∧
      (r = [] ∨ r ∈ rems))
    (hge : ∀ p ∈ done, 0 < deg p → deg head ≤ deg p → ∃ r, pseudoRem p head = .ok r ∧
      (r = [] ∨ r ∈ rems)) (todo : List (List R))
    (htodo : ∀ q, q ∈ todo ↔ q ∈ rest ∨ (q = pTail head ∧ q ≠ []) ∨ (q = derivative head ∧ q ≠ [])
      ∨ q ∈ rems) :
    SeqInv (sortedAdd A head done) todo := by
  have hmem : ∀ q, q ∈ sortedAdd A head done ↔ q = head ∨ q ∈ done := fun q =>
    mem_sortedAdd A head q done
  have old : ∀ q, (q ∈ done ∨ q ∈ head :: rest) → q ∈ sortedAdd A head done ∨ q ∈ todo := by
    intro q hq
    rw [hmem, htodo]
    rcases hq with hq | hq
    · tauto
    · rcases List.mem_cons.1 hq with hq | hq <;> tauto
  have new : ∀ q, (q = [] ∨ q ∈ todo) → q ∈ sortedAdd A head done ∨ q ∈ todo := by
    intro q hq
    rcases hq with rfl | hq
    · exact Or.inl ((hmem _).2 (Or.inr h.zero))
    · exact Or.inr hq
  refine ⟨(hmem _).2 (Or.inr h.zero), ?_, ?_, ?_, ?_, ?_, sortedAdd_pairwise A _ _ h.sorted,
    sortedAdd_nodup A _ _ h.nodup hnew⟩
  · intro p hp
    rcases (hmem p).1 hp with rfl | hp
    · exact h.canonTodo _ (by simp)
    · exact h.canon p hp
  · intro p hp
    rcases (htodo p).1 hp with hp | ⟨rfl, _⟩ | ⟨rfl, _⟩ | hp
    · exact h.canonTodo p (by simp [hp])
    · exact pTail_canon _
    · exact derivative_canon _
    · exact hremC p hp
  · intro p hp
    rcases (hmem p).1 hp with rfl | hp
    · by_cases h0 : pTail p = []
      · exact new _ (Or.inl h0)
      · exact new _ (Or.inr ((htodo _).2 (by tauto)))
    · exact old _ (h.tail p hp)
  · intro p hp
    rcases (hmem p).1 hp with rfl | hp
    · by_cases h0 : derivative p = []
      · exact new _ (Or.inl h0)
      · exact new _ (Or.inr ((htodo _).2 (by tauto)))
    · exact old _ (h.der p hp)
  · intro p hp q hq hne hq0 hqp
    rcases (hmem p).1 hp with rfl | hp'
    · rcases (hmem q).1 hq with rfl | hq'
      · exact absurd rfl hne
      · obtain ⟨r, h1, h2⟩ := hle q hq' hq0 hqp
        exact ⟨r, h1, new r (h2.imp_right fun h => (htodo r).2 (by tauto))⟩
    · rcases (hmem q).1 hq with rfl | hq'
      · obtain ⟨r, h1, h2⟩ := hge p hp' (lt_of_lt_of_le hq0 hqp) hqp
        exact ⟨r, h1, new r (h2.imp_right fun h => (htodo r).2 (by tauto))⟩
      · obtain ⟨r, h1, h2⟩ := h.rem p hp' q hq' hne hq0 hqp
        exact ⟨r, h1, old r h2⟩

theorem muchnikSeq_spec [IsDomain R] (A : MAlg R) : ∀ (M : Multiset ℕ) (done todo : List (List R)),
    M = (todo.map List.length : Multiset ℕ) → SeqInv done todo →
    ∃ N S, (∀ fuel ≥ N, muchnikSeq A fuel done todo = .ok S) ∧ SeqInv S [] ∧
      ∀ p, (p ∈ done ∨ p ∈ todo) → p ∈ S := by
  have hwf : WellFounded (Relation.CutExpand (fun a b : ℕ => a < b)) :=
    WellFounded.cutExpand wellFounded_lt
  intro M
  induction M using hwf.induction with
  | _ M ih =>
    intro done todo hM hinv
    cases todo with
    | nil =>
      refine ⟨0, done, fun fuel _ => ?_, hinv, by simp⟩
      cases fuel <;> rfl
    | cons head rest =>
      by_cases hmem : head ∈ done
      · have hinv' : SeqInv done rest := by
          have old : ∀ q, (q ∈ done ∨ q ∈ head :: rest) → q ∈ done ∨ q ∈ rest := by
            intro q hq
            rcases hq with hq | hq
            · exact Or.inl hq
            · rcases List.mem_cons.1 hq with rfl | hq
              · exact Or.inl hmem
              · exact Or.inr hq
          exact ⟨hinv.zero, hinv.canon, fun p hp => hinv.canonTodo p (by simp [hp]),
            fun p hp => old _ (hinv.tail p hp), fun p hp => old _ (hinv.der p hp),
            fun p hp q hq h1 h2 h3 => by
              obtain ⟨r, h4, h5⟩ := hinv.rem p hp q hq h1 h2 h3
              exact ⟨r, h4, old r h5⟩, hinv.sorted, hinv.nodup⟩
        obtain ⟨N, S, h1, h2, h3⟩ := ih _ (by
          rw [hM]
          refine ⟨0, head.length, by simp, ?_⟩
          rw [List.map_cons, ← Multiset.cons_coe, add_zero, ← Multiset.singleton_add, add_comm])
          done rest rfl hinv'
        refine ⟨N + 1, S, ?_, h2, ?_⟩
        · intro fuel hfuel
          obtain ⟨f, rfl⟩ : ∃ f, fuel = f + 1 := ⟨fuel - 1, by omega⟩
          unfold muchnikSeq
          rw [if_pos hmem]
          exact h1 f (by omega)
        · intro p hp
          rcases hp with hp | hp
          · exact h3 p (Or.inl hp)
          · rcases List.mem_cons.1 hp with rfl | hp
            · exact h3 _ (Or.inl hmem)
            · exact h3 p (Or.inr hp)
      · have hhead : head ≠ [] := by rintro rfl; exact hmem hinv.zero
        have hheadC : Canon head := hinv.canonTodo _ (by simp)
        have hlen : 0 < head.length := List.length_pos_iff.2 hhead
        obtain ⟨remLe, hle1, hle2⟩ := mapM_ok (fun p => pseudoRem head p)
          (done.filter fun p => deg p ≤ deg head ∧ 0 < deg p) (by
            intro p hp
            simp only [List.mem_filter, decide_eq_true_eq] at hp
            obtain ⟨s, h, _⟩ := pseudoRem_spec (f := head) (ne_nil_of_deg hp.2.2)
              (hinv.canon p hp.1) hheadC
            exact ⟨s, h⟩)
        obtain ⟨remGe, hge1, hge2⟩ := mapM_ok (fun p => pseudoRem p head)
          (done.filter fun p => deg head ≤ deg p ∧ 0 < deg p) (by
            intro p hp
            simp only [List.mem_filter, decide_eq_true_eq] at hp
            obtain ⟨s, h, _⟩ := pseudoRem_spec (g := head) hhead hheadC
              (hinv.canon p hp.1)
            exact ⟨s, h⟩)
        set rems := (remLe ++ remGe).filter fun p => p ≠ [] with hrems
        set rest1 := (if pTail head ≠ [] then rest ++ [pTail head] else rest) with hrest1
        set rest2 := (if derivative head ≠ [] then rest1 ++ [derivative head] else rest1) with hrest2
        have hunfold : ∀ f, muchnikSeq A (f + 1) done (head :: rest) =
            muchnikSeq A f (sortedAdd A head done) (rest2 ++ rems) := by
          intro f
          conv_lhs => unfold muchnikSeq
          rw [if_neg hmem]
          simp only [hle1, hge1]
          rfl
        have hle3 : ∀ r ∈ remLe, Canon r ∧ r.length < head.length := by
          intro r hr
          obtain ⟨i, hi, rfl⟩ := List.getElem_of_mem hr
          have hl := hle2.length_eq
          have h2 := List.forall₂_iff_get.1 hle2
          have h3 := h2.2 i (by omega) hi
          have hp := List.getElem_mem (l := done.filter fun p => deg p ≤ deg head ∧ 0 < deg p)
            (n := i) (by omega)
          simp only [List.get_eq_getElem] at h3
          set p := (done.filter fun p => deg p ≤ deg head ∧ 0 < deg p)[i] with hpdef
          simp only [List.mem_filter, decide_eq_true_eq] at hp
          obtain ⟨s, h4, h5, h6, _⟩ := pseudoRem_spec (f := head) (ne_nil_of_deg hp.2.2)
              (hinv.canon p hp.1) hheadC
          rw [h4] at h3
          cases h3
          exact ⟨h5, lt_of_lt_of_le h6 (length_le_of_deg hp.2.2 hp.2.1)⟩
        have hge3 : ∀ r ∈ remGe, Canon r ∧ r.length < head.length := by
          intro r hr
          obtain ⟨i, hi, rfl⟩ := List.getElem_of_mem hr
          have hl := hge2.length_eq
          have h2 := List.forall₂_iff_get.1 hge2
          have h3 := h2.2 i (by omega) hi
          have hp := List.getElem_mem (l := done.filter fun p => deg head ≤ deg p ∧ 0 < deg p)
            (n := i) (by omega)
          simp only [List.get_eq_getElem] at h3
          set p := (done.filter fun p => deg head ≤ deg p ∧ 0 < deg p)[i] with hpdef
          simp only [List.mem_filter, decide_eq_true_eq] at hp
          obtain ⟨s, h4, h5, h6, _⟩ := pseudoRem_spec (g := head) hhead hheadC
              (hinv.canon p hp.1)
          rw [h4] at h3
          cases h3
          exact ⟨h5, h6⟩
        have hfind : ∀ {f : List R → Except QErr (List R)} {l : List (List R)} {bs : List (List R)},
            List.Forall₂ (fun a b => f a = .ok b) l bs → ∀ a ∈ l, ∃ b ∈ bs, f a = .ok b := by
          intro f l bs h
          induction h with
          | nil => simp
          | cons h1 _ ih =>
            intro a ha
            rcases List.mem_cons.1 ha with rfl | ha
            · exact ⟨_, by simp, h1⟩
            · obtain ⟨b, hb, h⟩ := ih a ha
              exact ⟨b, by simp [hb], h⟩
        have htodo : ∀ q, q ∈ rest2 ++ rems ↔ q ∈ rest ∨ (q = pTail head ∧ q ≠ []) ∨
            (q = derivative head ∧ q ≠ []) ∨ q ∈ rems := by
          intro q
          have e1 : q ∈ rest1 ↔ q ∈ rest ∨ (q = pTail head ∧ q ≠ []) := by
            rw [hrest1]
            split
            · rename_i h
              simp only [List.mem_append, List.mem_singleton]
              constructor
              · rintro (h' | rfl)
                · exact Or.inl h'
                · exact Or.inr ⟨rfl, h⟩
              · tauto
            · rename_i h
              constructor
              · exact Or.inl
              · rintro (h' | ⟨rfl, h'⟩)
                · exact h'
                · exact absurd h' h
          have e2 : q ∈ rest2 ↔ q ∈ rest1 ∨ (q = derivative head ∧ q ≠ []) := by
            rw [hrest2]
            split
            · rename_i h
              simp only [List.mem_append, List.mem_singleton]
              constructor
              · rintro (h' | rfl)
                · exact Or.inl h'
                · exact Or.inr ⟨rfl, h⟩
              · tauto
            · rename_i h
              constructor
              · exact Or.inl
              · rintro (h' | ⟨rfl, h'⟩)
                · exact h'
                · exact absurd h' h
          rw [List.mem_append, e2, e1]
          tauto
        have hstep : SeqInv (sortedAdd A head done) (rest2 ++ rems) := by
          refine hinv.step A hmem ?_ ?_ ?_ _ htodo
          · intro r hr
            rw [hrems, List.mem_filter, List.mem_append] at hr
            rcases hr.1 with h | h
            · exact (hle3 r h).1
            · exact (hge3 r h).1
          · intro p hp h0 h1
            obtain ⟨r, hr, h2⟩ := hfind hle2 p (by simp [hp, h0, h1])
            refine ⟨r, h2, ?_⟩
            by_cases hr0 : r = []
            · exact Or.inl hr0
            · right; rw [hrems]; simp [hr, hr0]
          · intro p hp h0 h1
            obtain ⟨r, hr, h2⟩ := hfind hge2 p (by simp [hp, h0, h1])
            refine ⟨r, h2, ?_⟩
            by_cases hr0 : r = []
            · exact Or.inl hr0
            · right; rw [hrems]; simp [hr, hr0]
        obtain ⟨N, S, h1, h2, h3⟩ := ih _ (by
          rw [hM]
          let t : List (List R) := (if pTail head ≠ [] then [pTail head] else []) ++
            (if derivative head ≠ [] then [derivative head] else []) ++ rems
          have heq : rest2 ++ rems = rest ++ t := by
            simp only [t, hrest2, hrest1]
            split <;> split <;> simp
          refine ⟨(t.map List.length : Multiset ℕ), head.length, ?_, ?_⟩
          · intro a ha
            rw [Multiset.mem_coe, List.mem_map] at ha
            obtain ⟨q, hq, rfl⟩ := ha
            simp only [t, List.mem_append] at hq
            rcases hq with (hq | hq) | hq
            · split at hq
              · rw [List.mem_singleton] at hq; subst hq
                have := pTail_length head; omega
              · simp at hq
            · split at hq
              · rw [List.mem_singleton] at hq; subst hq
                have := derivative_length head; omega
              · simp at hq
            · rw [hrems, List.mem_filter, List.mem_append] at hq
              rcases hq.1 with h | h
              · exact (hle3 q h).2
              · exact (hge3 q h).2
          · show (List.map List.length (rest2 ++ rems) : Multiset ℕ) + _ = _
            rw [heq, List.map_append, ← Multiset.coe_add, List.map_cons, ← Multiset.cons_coe,
              ← Multiset.singleton_add]
            abel)
          (sortedAdd A head done) (rest2 ++ rems) rfl hstep
        refine ⟨N + 1, S, ?_, h2, ?_⟩
        · intro fuel hfuel
          obtain ⟨f, rfl⟩ : ∃ f, fuel = f + 1 := ⟨fuel - 1, by omega⟩
          rw [hunfold]
          exact h1 f (by omega)
        · intro p hp
          apply h3
          rw [mem_sortedAdd, htodo]
          rcases hp with hp | hp
          · tauto
          · rcases List.mem_cons.1 hp with rfl | hp
            · tauto
            · tauto

/-- The sequence for given input polynomials. -/
theorem muchnikSeq_total [IsDomain R] (A : MAlg R) (ps : List (List R)) (hps : ∀ p ∈ ps, Canon p) :
    ∃ N S, (∀ fuel ≥ N, muchnikSeq A fuel [[]] ps = .ok S) ∧ SeqInv S [] ∧ ∀ p ∈ ps, p ∈ S := by
  obtain ⟨N, S, h1, h2, h3⟩ := muchnikSeq_spec A _ [[]] ps rfl
    ⟨by simp, by intro p hp; rw [List.mem_singleton] at hp; subst hp; exact canon_nil, hps,
      by intro p hp; rw [List.mem_singleton] at hp; subst hp; left; simp [pTail, strip],
      by intro p hp; rw [List.mem_singleton] at hp; subst hp; left; simp [derivative, derAux, strip],
      by
        intro p hp q hq hne
        rw [List.mem_singleton] at hp hq
        exact absurd (hp.trans hq.symm) hne, by simp, by simp⟩
  exact ⟨N, S, h1, h2, fun p hp => h3 p (Or.inr hp)⟩

end Verif.Qe
