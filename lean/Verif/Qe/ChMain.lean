import Verif.Qe.ChTable
import Mathlib.Data.Finset.Card
import Mathlib.Data.Finset.Dedup

/-!
# `_real_table`: termination and meaning
-/

set_option linter.unusedSectionVars false

namespace Verif.Qe

open Polynomial Verif.Alg

variable {R : Type} [CommRing R] [DecidableEq R]
variable {K : Type*} [Field K] [LinearOrder K] [IsStrictOrderedRing K] [PolyIVT K]

theorem mem_degAdd (p q : List R) (l : List (List R)) : q ∈ degAdd p l ↔ q = p ∨ q ∈ l := by
  induction l with
  | nil => simp [degAdd]
  | cons a l ih =>
    unfold degAdd
    split
    · simp
    · rw [List.mem_cons, ih, List.mem_cons]; tauto

theorem nodup_degAdd {p : List R} {l : List (List R)} (hl : l.Nodup) (hp : p ∉ l) :
    (degAdd p l).Nodup := by
  induction l with
  | nil => simp [degAdd]
  | cons a l ih =>
    unfold degAdd
    split
    · exact List.nodup_cons.2 ⟨hp, hl⟩
    · rw [List.nodup_cons] at hl
      refine List.nodup_cons.2 ⟨?_, ih hl.2 fun h => hp (by simp [h])⟩
      rw [mem_degAdd]
      rintro (rfl | h)
      · exact hp (by simp)
      · exact hl.1 h

theorem sorted_degAdd {p : List R} {l : List (List R)}
    (hl : l.Pairwise fun a b => b.length ≤ a.length) :
    (degAdd p l).Pairwise fun a b => b.length ≤ a.length := by
  induction l with
  | nil => simp [degAdd]
  | cons a l ih =>
    unfold degAdd
    rw [List.pairwise_cons] at hl
    split
    · next h =>
      refine List.pairwise_cons.2 ⟨?_, List.pairwise_cons.2 hl⟩
      intro b hb
      rcases List.mem_cons.1 hb with rfl | hb
      · exact h.le
      · exact (hl.1 b hb).trans h.le
    · next h =>
      refine List.pairwise_cons.2 ⟨?_, ih hl.2⟩
      intro b hb
      rcases (mem_degAdd p b l).1 hb with rfl | hb
      · omega
      · exact hl.1 b hb

theorem degSet_spec (polys : List (List R)) : (degSet polys).Nodup ∧
    (degSet polys).Pairwise (fun a b => b.length ≤ a.length) ∧ ∀ q, q ∈ degSet polys ↔ q ∈ polys := by
  have key : ∀ (l acc : List (List R)), acc.Nodup → acc.Pairwise (fun a b => b.length ≤ a.length) →
      (l.foldl (fun acc p => if p ∈ acc then acc else degAdd p acc) acc).Nodup ∧
      (l.foldl (fun acc p => if p ∈ acc then acc else degAdd p acc) acc).Pairwise
        (fun a b => b.length ≤ a.length) ∧
      ∀ q, q ∈ l.foldl (fun acc p => if p ∈ acc then acc else degAdd p acc) acc ↔ q ∈ acc ∨ q ∈ l := by
    intro l
    induction l with
    | nil => intro acc h1 h2; exact ⟨h1, h2, by simp⟩
    | cons p l ih =>
      intro acc h1 h2
      rw [List.foldl_cons]
      by_cases hp : p ∈ acc
      · rw [if_pos hp]
        obtain ⟨a1, a2, a3⟩ := ih acc h1 h2
        refine ⟨a1, a2, fun q => ?_⟩
        rw [a3, List.mem_cons]
        constructor
        · rintro (h | h)
          · exact Or.inl h
          · exact Or.inr (Or.inr h)
        · rintro (h | rfl | h)
          · exact Or.inl h
          · exact Or.inl hp
          · exact Or.inr h
      · rw [if_neg hp]
        obtain ⟨a1, a2, a3⟩ := ih (degAdd p acc) (nodup_degAdd h1 hp) (sorted_degAdd h2)
        refine ⟨a1, a2, fun q => ?_⟩
        rw [a3, mem_degAdd, List.mem_cons]
        tauto
  obtain ⟨h1, h2, h3⟩ := key polys [] (by simp) (by simp)
  exact ⟨h1, h2, fun q => by unfold degSet; rw [h3]; simp⟩

theorem mem_neededOf (p : List R) (rest : List (List R)) (q : List R) :
    q ∈ neededOf p rest ↔ q ∈ rest ∨ (derivative p ≠ [] ∧ q = derivative p) := by
  unfold neededOf
  by_cases hd : derivative p ≠ []
  · rw [if_pos hd]
    by_cases hm : derivative p ∈ rest
    · rw [if_pos hm]
      constructor
      · exact Or.inl
      · rintro (h | ⟨_, rfl⟩)
        · exact h
        · exact hm
    · rw [if_neg hm, mem_degAdd]
      constructor
      · rintro (h | h)
        · exact Or.inr ⟨hd, h⟩
        · exact Or.inl h
      · rintro (h | ⟨_, h⟩)
        · exact Or.inr h
        · exact Or.inl h
  · rw [if_neg hd]
    exact ⟨Or.inl, fun h => h.elim id fun h => absurd h.1 hd⟩

/-- What `_real_table` needs: the polynomials of maximal degree have known leading coefficients. -/
def GoalOK (A : MAlg R) (con : Ctx R) (polys : List (List R)) : Prop :=
  (∀ p ∈ polys, Canon p) ∧ ∀ p ∈ polys, (∀ q ∈ polys, q.length ≤ p.length) → Stop A con p

/-- The polynomials are not a constant and 0. -/
def NoLoss (polys : List (List R)) : Prop :=
  ∀ a : R, ¬ ∀ q : List R, q ∈ polys ↔ q = [a] ∨ q = []

/-- The result for one goal. -/
def RTSpec (K : Type*) [Field K] [LinearOrder K] (A : MAlg R) (con : Ctx R) (polys : List (List R)) : Prop :=
  ∃ N out, (∀ fuel ≥ N, realTable A fuel polys con = .ok out) ∧ (∀ x ∈ out, TOut K A con polys x) ∧
    (polys ≠ [] → NoLoss polys → ∀ φ : R →+* K, Realises A φ con → ∃ x ∈ out, Realises A φ x.2)

theorem initial_out {A : MAlg R} {con : Ctx R} (hc : CtxOK A con) {polys : List (List R)}
    {p : List R} {s : ℤ} (hp : ∀ q, q ∈ polys ↔ q = p) (hd : deg p = 0) (hs3 : Sign3 s)
    (hs : cval A con p = some s) : TOut K A con polys ([(p, row3 s)], con) := by
  have hcv : ∀ i, i = 0 ∨ i ∈ segCols [((1/2 : ℚ), (1 : ℚ))] → cv [(p, row3 s)] p i = s := by
    intro i hi
    unfold cv dGet row3
    simp only [segCols, List.mem_cons, List.not_mem_nil, or_false] at hi
    rcases hi with rfl | rfl | rfl
    · simp
    · simp [List.find?]
    · norm_num [List.find?]
  have hrow : ∀ q, dRow [(p, row3 s)] q = if p = q then row3 s else [] := by
    intro q
    unfold dRow dGet
    by_cases h : p = q <;> simp [h]
  refine ⟨[(1/2, 1)], ?_, CtxExt.refl _, hc, ?_⟩
  · refine ⟨by simp, ⟨by norm_num, by norm_num, trivial⟩, rfl, ?_, ?_, ?_, ?_, ?_, ?_⟩
    · intro q
      rw [hp]
      simp [keys]
    · intro q hq i
      rw [hp] at hq
      subst hq
      show i ∈ (dRow [(q, row3 s)] q).map Prod.fst ↔ _
      rw [hrow, if_pos rfl]
      simp [row3, segCols]
    · intro q
      show ((dRow [(p, row3 s)] q).map Prod.fst).Nodup
      rw [hrow]
      split
      · simp only [row3, List.map_cons, List.map_nil]
        norm_num
      · simp
    · apply segOK_of
      · intro g hg q hq h0
        rw [hp] at hq
        subst hq
        rw [hcv 0 (Or.inl rfl)] at h0
        rw [hcv g (Or.inr (segGaps_sub _ hg))]
        exact h0
      · intro e he
        simp [segInner] at he
    · intro q hq i hi
      rw [hp] at hq
      subst hq
      rw [hcv i hi]; exact hs3
    · intro q hq _ i hi
      rw [hp] at hq
      subst hq
      rw [hcv i hi]; exact hs
  · intro φ hφ
    have hv : s = sg (φ (p.headD 0)) := hφ.cval hd hs
    refine ⟨?_, [], .last _ _ _ ?_ ?_⟩
    · intro q hq
      rw [hp] at hq
      subst hq
      rw [P_const φ hd, sgBot_C, ← hv]
      exact (hcv 0 (Or.inl rfl)).symm
    · intro q hq y _
      rw [hp] at hq
      subst hq
      rw [P_const φ hd, eval_C, ← hv]
      exact (hcv (1/2) (Or.inr (by simp [segCols]))).symm
    · intro q hq
      rw [hp] at hq
      subst hq
      rw [P_const φ hd, sgTop_C, ← hv]
      exact (hcv 1 (Or.inr (by simp [segCols]))).symm

theorem splitUnknown_eq {A : MAlg R} {p : List R} {tables : List (Table R × Ctx R)}
    (h : ∀ t ∈ tables, Stop A t.2 p) : splitUnknown A p tables = tables := by
  unfold splitUnknown
  split
  · next hv =>
    induction tables with
    | nil => rfl
    | cons t l ih =>
      rw [List.flatMap_cons, ih fun x hx => h x (by simp [hx])]
      rcases h t (by simp) with h' | ⟨s, _, h'⟩
      · rw [hv.2] at h'; cases h'
      · rw [h']; rfl
  · rfl

theorem mapM_fuel {α β : Type} {f : ℕ → α → Except QErr β} {Q : α → β → Prop} :
    ∀ l : List α, (∀ a ∈ l, ∃ N b, (∀ fuel ≥ N, f fuel a = .ok b) ∧ Q a b) →
      ∃ N bs, (∀ fuel ≥ N, l.mapM (f fuel) = .ok bs) ∧ List.Forall₂ Q l bs := by
  intro l
  induction l with
  | nil => intro _; exact ⟨0, [], fun _ _ => rfl, .nil⟩
  | cons a l ih =>
    intro h
    obtain ⟨N, b, h1, h2⟩ := h a (by simp)
    obtain ⟨N', bs, h3, h4⟩ := ih fun x hx => h x (by simp [hx])
    refine ⟨max N N', b :: bs, ?_, .cons h2 h4⟩
    intro fuel hf
    rw [List.mapM_cons, h1 fuel (le_trans (le_max_left _ _) hf), h3 fuel (le_trans (le_max_right _ _) hf)]
    rfl

theorem forall₂_flatten {α β : Type} {Q : α → List β → Prop} {l : List α} {bs : List (List β)}
    (h : List.Forall₂ Q l bs) :
    (∀ x ∈ bs.flatten, ∃ a ∈ l, ∃ b, Q a b ∧ x ∈ b) ∧
      ∀ a ∈ l, ∃ b, Q a b ∧ ∀ x ∈ b, x ∈ bs.flatten := by
  induction h with
  | nil => simp
  | cons hab _ ih =>
    obtain ⟨i1, i2⟩ := ih
    constructor
    · intro x hx
      rw [List.flatten_cons, List.mem_append] at hx
      rcases hx with hx | hx
      · exact ⟨_, by simp, _, hab, hx⟩
      · obtain ⟨a, ha, hb⟩ := i1 x hx
        exact ⟨a, by simp [ha], hb⟩
    · intro a ha
      rcases List.mem_cons.1 ha with rfl | ha
      · exact ⟨_, hab, fun x hx => by simp [hx]⟩
      · obtain ⟨b, hb, h'⟩ := i2 a ha
        exact ⟨b, hb, fun x hx => by rw [List.flatten_cons]; exact List.mem_append_right _ (h' x hx)⟩

/-- number of different polynomials of length `d` -/
def cnt (d : ℕ) (polys : List (List R)) : ℕ := (polys.filter fun p => decide (p.length = d)).toFinset.card

theorem cval_mono {A : MAlg R} {c c' : Ctx R} (h : CtxExt c c') {q : List R} {v : ℤ}
    (hv : cval A c q = some v) : cval A c' q = some v := by
  unfold cval at hv ⊢
  split at hv
  · next h' => rw [if_pos h']; exact hv
  · next h' => rw [if_neg h']; exact h _ _ hv

/-- A result remains right for an extension of its context. -/
theorem TOut.extend {A : MAlg R} {con : Ctx R} {polys : List (List R)} {T : Table R} {c c' : Ctx R}
    (h : TOut K A con polys (T, c)) (hext : CtxExt c c') (hc : CtxOK A c') : TOut K A con polys (T, c') := by
  obtain ⟨gs, h1, h2, _, h4⟩ := h
  refine ⟨gs, ⟨h1.ne, h1.chain, h1.last, h1.keys, h1.ck, h1.nodup, h1.seg, h1.val,
    fun q hq hd i hi => cval_mono hext (h1.const q hq hd i hi)⟩, h2.trans hext, hc, ?_⟩
  intro φ hφ
  exact h4 φ ⟨hφ.ok, fun k s hk => hφ.ctx k s (hext k s hk)⟩

theorem TOut.weaken {A : MAlg R} {con con' : Ctx R} {polys : List (List R)} {x : Table R × Ctx R}
    (h : TOut K A con' polys x) (hext : CtxExt con con') : TOut K A con polys x := by
  obtain ⟨gs, h1, h2, h3⟩ := h
  exact ⟨gs, h1, hext.trans h2, h3⟩

theorem Realises.set {A : MAlg R} {φ : R →+* K} {c : Ctx R} (h : Realises A φ c) (k : R) :
    Realises A φ (dSet c k (sg (φ k))) := by
  refine ⟨h.ok, fun j s hj => ?_⟩
  rw [dGet_dSet] at hj
  split at hj
  · next h' => subst h'; cases hj; rfl
  · exact h.ctx j s hj

theorem sg_mem (x : K) : sg x ∈ [(-1 : ℤ), 0, 1] := by
  rcases sg_cases x with ⟨_, e⟩ | ⟨_, e⟩ | ⟨_, e⟩ <;> rw [e] <;> simp

/-- The case of a single constant. -/
theorem initialTable_out {A : MAlg R} (hA : AlgOK A) {con : Ctx R} (hc : CtxOK A con)
    {polys : List (List R)} {p : List R} (hp : ∀ q, q ∈ polys ↔ q = p) (hd : deg p = 0) :
    ∃ out, initialTable A p con = .ok out ∧ (∀ x ∈ out, TOut K A con polys x) ∧
      ∀ φ : R →+* K, Realises A φ con → ∃ x ∈ out, Realises A φ x.2 := by
  have hlc : lc p = p.headD 0 ∧ hasVariable A p = A.hasVar (lc p) := by
    unfold deg at hd
    match p, hd with
    | [], _ => exact ⟨rfl, by simp [lc, hasVariable, hA.zero]⟩
    | [a], _ => exact ⟨rfl, rfl⟩
  have hcv : ∀ c, cval A c p = if A.hasVar (lc p) = false then some (A.sign (lc p)) else dGet c (lc p) := by
    intro c
    unfold cval
    rw [hlc.2, ← hlc.1]
  unfold initialTable
  rw [if_neg (by omega)]
  by_cases hv : A.hasVar (lc p) = false
  · rw [if_pos hv]
    refine ⟨_, rfl, ?_, fun φ hφ => ⟨_, List.mem_singleton_self _, hφ⟩⟩
    intro x hx
    rw [List.mem_singleton] at hx
    subst hx
    exact initial_out hc hp hd (hA.sign3 _ hv) (by rw [hcv, if_pos hv])
  · rw [if_neg hv]
    have hv' : A.hasVar (lc p) = true := by simpa using hv
    cases hg : dGet con (lc p) with
    | some s =>
      refine ⟨_, rfl, ?_, fun φ hφ => ⟨_, List.mem_singleton_self _, hφ⟩⟩
      intro x hx
      rw [List.mem_singleton] at hx
      subst hx
      exact initial_out hc hp hd (hc.val _ _ hg) (by rw [hcv, if_neg hv, hg])
    | none =>
      refine ⟨_, rfl, ?_, ?_⟩
      · intro x hx
        obtain ⟨s, hs, rfl⟩ := List.mem_map.1 hx
        obtain ⟨h1, h2, h3⟩ := dSet_ext (c := con) (k := lc p) (s := s) (by rw [hg]; exact hs) hc hv'
        exact (initial_out h2 hp hd (h2.val _ _ h3) (by rw [hcv, if_neg hv, h3])).weaken h1
      · intro φ hφ
        exact ⟨_, List.mem_map.2 ⟨sg (φ (lc p)), sg_mem _, rfl⟩, hφ.set _⟩

/-- The distinction on the sign of a constant. -/
theorem splitUnknown_out {A : MAlg R} (hA : AlgOK A) {p : List R} (hp : p ≠ [])
    {con : Ctx R} {goal : List (List R)} {tables : List (Table R × Ctx R)}
    (ht : ∀ t ∈ tables, TOut K A con goal t) :
    (∀ t ∈ splitUnknown A p tables, TOut K A con goal t ∧
      (deg p = 0 → ∃ s, signCtx A t.2 (lc p) = .ok s ∧ Sign3 s)) ∧
    ∀ t ∈ tables, ∀ φ : R →+* K, Realises A φ t.2 → ∃ t' ∈ splitUnknown A p tables, Realises A φ t'.2 := by
  have hl : deg p = 0 → p.length = 1 := by
    intro hd
    have := List.length_pos_iff.2 hp
    unfold deg at hd; omega
  unfold splitUnknown
  by_cases hv : p.length = 1 ∧ A.hasVar (lc p) = true
  · rw [if_pos hv]
    have hs : ∀ {c : Ctx R} {s : ℤ}, dGet c (lc p) = some s → signCtx A c (lc p) = .ok s := by
      intro c s h
      unfold signCtx
      rw [if_neg (by rw [hv.2]; simp), h]
    constructor
    · intro t' ht'
      obtain ⟨⟨T, c⟩, hm, h⟩ := List.mem_flatMap.1 ht'
      have hto := ht _ hm
      have hcok : CtxOK A c := by obtain ⟨_, _, _, h, _⟩ := hto; exact h
      cases hg : dGet c (lc p) with
      | some s =>
        simp only [hg, List.mem_singleton] at h
        subst h
        exact ⟨hto, fun _ => ⟨s, hs hg, hcok.val _ _ hg⟩⟩
      | none =>
        simp only [hg] at h
        obtain ⟨s, hs', rfl⟩ := List.mem_map.1 h
        obtain ⟨h1, h2, h3⟩ := dSet_ext (c := c) (k := lc p) (s := s) (by rw [hg]; exact hs') hcok hv.2
        exact ⟨hto.extend h1 h2, fun _ => ⟨s, hs h3, h2.val _ _ h3⟩⟩
    · rintro ⟨T, c⟩ hm φ hφ
      cases hg : dGet c (lc p) with
      | some s => exact ⟨(T, c), List.mem_flatMap.2 ⟨_, hm, by simp [hg]⟩, hφ⟩
      | none =>
        refine ⟨(T, dSet c (lc p) (sg (φ (lc p)))), List.mem_flatMap.2 ⟨_, hm, ?_⟩, hφ.set _⟩
        simp only [hg]
        exact List.mem_map.2 ⟨_, sg_mem _, rfl⟩
  · rw [if_neg hv]
    refine ⟨fun t h => ⟨ht t h, fun hd => ?_⟩, fun t h φ hφ => ⟨t, h, hφ⟩⟩
    have hv' : A.hasVar (lc p) = false := by
      by_contra h'
      exact hv ⟨hl hd, by simpa using h'⟩
    unfold signCtx
    rw [if_pos hv']
    exact ⟨_, rfl, hA.sign3 _ hv'⟩

/-- The valuation is not lost in the recursion: the first polynomial is not constant, or the only one, or
another one does not vanish. -/
def Enough (φ : R →+* K) (p : List R) (rest : List (List R)) : Prop :=
  0 < deg p ∨ rest = [] ∨ ∃ q ∈ rest, P φ q ≠ 0

/-- One step of `_real_table`. -/
theorem realTable_step [IsDomain R] [CharZero R] {A : MAlg R} (hA : AlgOK A) {polys : List (List R)}
    {con : Ctx R} (hc : CtxOK A con) (hcans : ∀ q ∈ polys, Canon q) {p : List R} {rest : List (List R)}
    (hds : degSet polys = p :: rest) (hstop : 0 < deg p → Stop A con p)
    (ih : ∀ (goal : List (List R)) (con' : Ctx R), CtxOK A con' → GoalOK A con' goal →
      (∀ q ∈ goal, q.length ≤ p.length ∧ (q.length = p.length → q ∈ rest)) → RTSpec K A con' goal) :
    ∃ N out, (∀ fuel ≥ N, realTable A fuel polys con = .ok out) ∧ (∀ x ∈ out, TOut K A con polys x) ∧
      ∀ φ : R →+* K, Realises A φ con → Enough φ p rest → ∃ x ∈ out, Realises A φ x.2 := by
  obtain ⟨hnd, hsort, hmem⟩ := degSet_spec polys
  rw [hds] at hnd hsort hmem
  rw [List.nodup_cons] at hnd
  rw [List.pairwise_cons] at hsort
  have hpm : p ∈ polys := (hmem p).1 (by simp)
  have hpne : polys ≠ [] := List.ne_nil_of_mem hpm
  obtain ⟨p0, ps, hpolys⟩ : ∃ p0 ps, polys = p0 :: ps := by
    cases h : polys with
    | nil => exact absurd h hpne
    | cons p0 ps => exact ⟨p0, ps, rfl⟩
  have hmax : ∀ q ∈ polys, q.length ≤ p.length := by
    intro q hq
    rcases List.mem_cons.1 ((hmem q).2 hq) with rfl | hq
    · exact le_rfl
    · exact hsort.1 q hq
  have hcan := hcans p hpm
  -- unfolding
  have hunf : ∀ fuel, realTable A (fuel + 1) polys con =
      if neededOf p rest = [] then initialTable A p con
      else (expandContext A con (neededOf p rest) >>= fun exp =>
        (exp.mapM (chContext A (realTable A fuel) polys p (neededOf p rest)) >>= fun rs =>
          (Except.ok rs.flatten : Except QErr _))) := by
    intro fuel
    conv_lhs => rw [hpolys]; unfold realTable
    rw [← hpolys, hds]
  by_cases hn : neededOf p rest = []
  · -- a single constant
    have hrest : rest = [] := by
      rw [List.eq_nil_iff_forall_not_mem] at hn ⊢
      exact fun q hq => hn q ((mem_neededOf p rest q).2 (Or.inl hq))
    have hder : derivative p = [] := by
      by_contra h
      rw [List.eq_nil_iff_forall_not_mem] at hn
      exact hn _ ((mem_neededOf p rest _).2 (Or.inr ⟨h, rfl⟩))
    have hd0 : deg p = 0 := by
      by_contra h
      exact (lc_derivative hcan (Nat.pos_of_ne_zero h)).1 hder
    have honly : ∀ q, q ∈ polys ↔ q = p := by
      intro q
      rw [← hmem, hrest]; simp
    obtain ⟨out, hinit, hout, hcov⟩ := initialTable_out (K := K) hA hc honly hd0
    refine ⟨1, out, ?_, hout, ?_⟩
    · intro fuel hf
      obtain ⟨f, rfl⟩ : ∃ f, fuel = f + 1 := ⟨fuel - 1, by omega⟩
      rw [hunf, if_pos hn, hinit]
    · intro φ hφ _
      exact hcov φ hφ
  · -- the general case
    set needed := neededOf p rest with hneeded
    have hmemn : ∀ q, q ∈ needed ↔ q ∈ rest ∨ (derivative p ≠ [] ∧ q = derivative p) :=
      fun q => mem_neededOf p rest q
    have hpne' : p ≠ [] := by
      rintro rfl
      apply hn
      rw [List.eq_nil_iff_forall_not_mem]
      intro q hq
      rcases (hmemn q).1 hq with hq | ⟨h, _⟩
      · have h1 := hsort.1 q hq
        have : q = [] := List.length_eq_zero_iff.1 (by simpa using h1)
        subst this
        exact hnd.1 hq
      · exact h rfl
    have hplen : 0 < p.length := List.length_pos_iff.2 hpne'
    have hrestp : ∀ q ∈ rest, q ∈ polys := fun q hq => (hmem q).1 (by simp [hq])
    have hncan : ∀ q ∈ needed, Canon q := by
      intro q hq
      rcases (hmemn q).1 hq with hq | ⟨_, rfl⟩
      · exact hcans q (hrestp q hq)
      · exact derivative_canon p
    have hnle : ∀ q ∈ needed, q.length ≤ p.length := by
      intro q hq
      rcases (hmemn q).1 hq with hq | ⟨_, rfl⟩
      · exact hsort.1 q hq
      · have := derivative_length p; omega
    have hnp : ∀ q ∈ needed, q.length = p.length → q ∈ rest := by
      intro q hq hl
      rcases (hmemn q).1 hq with hq | ⟨_, rfl⟩
      · exact hq
      · have := derivative_length p; omega
    have hnew : p ∉ needed := fun h => hnd.1 (hnp p h rfl)
    obtain ⟨exp, he1, he2, he3⟩ := expandContext_ok (K := K) hA hc needed hncan
    have hmain : ∀ e ∈ exp, ∃ N out,
        (∀ fuel ≥ N, chContext A (realTable A fuel) polys p needed e = .ok out) ∧
        ((∀ x ∈ out, TOut K A con polys x) ∧ (∀ φ : R →+* K, Realises A φ e.1 → Enough φ p rest →
          ∃ x ∈ out, Realises A φ x.2)) := by
      intro e he
      have hent := he2 e he
      have hpcanon : ∀ r ∈ e.2.1, Canon r := fun r hr => by
        obtain ⟨q, hq, h'⟩ := hent.pols r hr
        exact h'.canon (hncan q hq)
      have hple : ∀ r ∈ e.2.1, r.length ≤ p.length := fun r hr => by
        obtain ⟨q, hq, h'⟩ := hent.pols r hr
        have := hnle q hq
        rcases h'.length hA with rfl | h'' <;> omega
      have hpeq : ∀ r ∈ e.2.1, r.length = p.length → r ∈ rest := fun r hr hl => by
        obtain ⟨q, hq, h'⟩ := hent.pols r hr
        have := hnle q hq
        rcases h'.length hA with rfl | h''
        · exact hnp r hq hl
        · omega
      have hremspec : ∀ g ∈ e.2.1, 0 < deg g → ∃ r, pseudoRem p g = .ok r ∧ Canon r ∧ r.length < g.length := by
        intro g hg' hd
        obtain ⟨r, h1, h2, h3, _⟩ := pseudoRem_ge (ne_nil_of_deg hd) (hpcanon g hg') hcan (hple g hg')
        exact ⟨r, h1, h2, h3⟩
      obtain ⟨rems, hr1, hr2⟩ := mapM_ok (fun g => pseudoRem p g)
        (e.2.1.filter fun g => decide (0 < deg g)) (fun g hg' => by
          simp only [List.mem_filter, decide_eq_true_eq] at hg'
          obtain ⟨r, hr, _⟩ := hremspec g hg'.1 hg'.2
          exact ⟨r, hr⟩)
      have hrl : ∀ r ∈ rems, ∃ g ∈ e.2.1, 0 < deg g ∧ pseudoRem p g = .ok r := by
        intro r hr
        obtain ⟨g, hg', h'⟩ := forall₂_mem_right hr2 r hr
        simp only [List.mem_filter, decide_eq_true_eq] at hg'
        exact ⟨g, hg'.1, hg'.2, h'⟩
      have hrr : ∀ g ∈ e.2.1, 0 < deg g → ∃ r ∈ rems, pseudoRem p g = .ok r := by
        intro g hg' hd
        obtain ⟨r, hr, h'⟩ := forall₂_mem_left hr2 g (by
          simp only [List.mem_filter, decide_eq_true_eq]; exact ⟨hg', hd⟩)
        exact ⟨r, hr, h'⟩
      set goal := (e.2.1 ++ rems).filter fun p => decide (p ≠ []) with hgoal
      have hmemg : ∀ q, q ∈ goal ↔ (q ∈ e.2.1 ∨ q ∈ rems) ∧ q ≠ [] := by
        intro q
        simp only [hgoal, List.mem_filter, List.mem_append, decide_eq_true_eq]
      have hremlt : ∀ r ∈ rems, ∃ g ∈ goal, r.length < g.length ∧ Canon r := by
        intro r hr
        obtain ⟨g, hg', hd, h'⟩ := hrl r hr
        obtain ⟨r', h1, h2, h3⟩ := hremspec g hg' hd
        rw [h'] at h1
        cases h1
        exact ⟨g, (hmemg g).2 ⟨Or.inl hg', ne_nil_of_deg hd⟩, h3, h2⟩
      have hgle : ∀ q ∈ goal, q.length ≤ p.length := by
        intro q hq
        rcases ((hmemg q).1 hq).1 with h' | h'
        · exact hple q h'
        · obtain ⟨g, hg', hd, h''⟩ := hrl q h'
          obtain ⟨r', h1, _, h3⟩ := hremspec g hg' hd
          rw [h''] at h1
          cases h1
          have := hple g hg'
          omega
      have hgeq : ∀ q ∈ goal, q.length = p.length → q ∈ rest := by
        intro q hq hl
        rcases ((hmemg q).1 hq).1 with h' | h'
        · exact hpeq q h' hl
        · obtain ⟨g, hg', hlt, _⟩ := hremlt q h'
          have := hgle g hg'
          omega
      have hgoalok : GoalOK A e.1 goal := by
        constructor
        · intro q hq
          rcases ((hmemg q).1 hq).1 with h' | h'
          · exact hpcanon q h'
          · obtain ⟨_, _, _, h''⟩ := hremlt q h'
            exact h''
        · intro q hq hmaxq
          rcases ((hmemg q).1 hq).1 with h' | h'
          · obtain ⟨q', _, h''⟩ := hent.pols q h'
            exact h''.stops
          · obtain ⟨g, hg', hlt, _⟩ := hremlt q h'
            have := hmaxq g hg'
            omega
      have hnoloss : NoLoss goal := by
        intro a h
        exact ((hmemg []).1 ((h []).2 (Or.inr rfl))).2 rfl
      have hspec : RTSpec K A e.1 goal := ih goal e.1 hent.ok hgoalok fun q hq => ⟨hgle q hq, hgeq q hq⟩
      obtain ⟨N, tables, ht1, ht2, ht3⟩ := hspec
      have hctx : goal ≠ [] → CtxHyp A con polys p needed e goal := by
        intro hgne
        refine ⟨hA, hent, ?_, hpne, hnew, hcan, hncan, hnle, hpne', ?_, ?_, ?_, ?_, hgne, ?_⟩
        · intro q hq
          rcases List.mem_cons.1 ((hmem q).2 hq) with h' | h'
          · exact Or.inl h'
          · exact Or.inr ((hmemn q).2 (Or.inl h'))
        · intro hd
          exact (hmemn _).2 (Or.inr ⟨(lc_derivative hcan hd).1, rfl⟩)
        · intro q hq hq0
          exact (hmemg q).2 ⟨Or.inl hq, hq0⟩
        · intro q hq hd
          obtain ⟨r, hr, h'⟩ := hrr q hq hd
          exact ⟨r, h', fun h0 => (hmemg r).2 ⟨Or.inr hr, h0⟩⟩
        · intro h'
          exact hnd.1 (hgeq p h' rfl)
        · intro h'
          apply hgne
          rw [List.eq_nil_iff_forall_not_mem]
          intro q hq
          rcases ((hmemg q).1 hq).1 with h'' | h''
          · rw [h'] at h''; simp at h''
          · obtain ⟨g, hg', _⟩ := hrl q h''
            rw [h'] at hg'; simp at hg'
      have htab : ∀ t ∈ tables, goal ≠ [] := by
        rintro t ht hgn
        have h1 := ht1 N le_rfl
        rw [hgn] at h1
        have h2 : realTable A N [] e.1 = .ok [] := by cases N <;> rfl
        rw [h2] at h1
        cases h1
        simp at ht
      obtain ⟨hsp1, hsp2⟩ := splitUnknown_out hA hpne' ht2
      have hsign : ∀ t ∈ splitUnknown A p tables,
          ∃ s, signCtx A t.2 (lc p) = .ok s ∧ Sign3 s ∧ (0 < deg p → s ≠ 0) := by
        intro t ht
        obtain ⟨htout, hts⟩ := hsp1 t ht
        by_cases hd : 0 < deg p
        · obtain ⟨gs, _, hext, hcok, _⟩ := htout
          obtain ⟨s, h1, h2, h3⟩ := ((hstop hd).mono (hent.ext.trans hext)).sign_ne hA hcok hcan hpne'
          exact ⟨s, h1, h2, fun _ => h3⟩
        · obtain ⟨s, h1, h2⟩ := hts (by omega)
          exact ⟨s, h1, h2, fun h => absurd h hd⟩
      have htab' : ∀ t ∈ splitUnknown A p tables, goal ≠ [] := by
        intro t ht
        obtain ⟨t0, ht0⟩ : ∃ t0, t0 ∈ tables := by
          by_contra h0
          push Not at h0
          have h1 : tables = [] := List.eq_nil_iff_forall_not_mem.2 h0
          rw [h1] at ht
          unfold splitUnknown at ht
          split at ht <;> simp at ht
        exact htab t0 ht0
      obtain ⟨N0, outs, ho1, ho2⟩ := mapM_fuel (f := fun _ => chTable A polys p needed e.2.1 e.2.2)
        (Q := fun t out => (∀ x ∈ out, TOut K A con polys x) ∧
          ∀ φ : R →+* K, Realises A φ t.2 → ∃ x ∈ out, Realises A φ x.2) (splitUnknown A p tables) (by
          intro t ht
          obtain ⟨out, h1, h2⟩ := chTable_ok (K := K) (hctx (htab' t ht)) (hsp1 t ht).1 (hsign t ht)
          exact ⟨0, out, fun _ _ => h1, h2⟩)
      obtain ⟨hq1, hq2⟩ := forall₂_flatten ho2
      refine ⟨N, outs.flatten, ?_, ?_, ?_⟩
      · intro fuel hf
        have h3 := ho1 N0 le_rfl
        unfold chContext
        rw [hr1]
        show (realTable A fuel goal e.1 >>= fun tables => _) = _
        rw [ht1 fuel hf]
        show ((splitUnknown A p tables).mapM _ >>= fun rs => (Except.ok rs.flatten : Except QErr _)) = _
        rw [h3]
        rfl
      · intro x hx
        obtain ⟨t, _, b, hb, hxb⟩ := hq1 x hx
        exact hb.1 x hxb
      · intro φ hφ hen
        have hgne : goal ≠ [] := by
          intro hgn
          have hpn : ∀ r ∈ e.2.1, r = [] := by
            intro r hr
            by_contra h0
            have := (hmemg r).2 ⟨Or.inl hr, h0⟩
            rw [hgn] at this
            simp at this
          by_cases hd : 0 < deg p
          · obtain ⟨r, _, hr, hred⟩ := hent.map _ ((hmemn _).2 (Or.inr ⟨(lc_derivative hcan hd).1, rfl⟩))
            have h1 := hred.sem hA hφ
            rw [hpn r hr, P_derivative] at h1
            have h2 : (P φ p).natDegree = 0 := Polynomial.derivative_eq_zero.1 (by rw [h1]; simp [P])
            obtain ⟨s, hs1, _, hs0⟩ := ((hstop hd).mono hent.ext).sign_ne hA hent.ok hcan hpne'
            have hlc : φ (lc p) ≠ 0 := by
              intro h0
              have := hφ.signCtx hs1
              rw [h0, sg_zero] at this
              exact hs0 this
            rw [P_natDegree φ hcan hlc] at h2
            omega
          · rcases hen with h' | h' | ⟨q, hq, hq0⟩
            · exact hd h'
            · apply hn
              rw [List.eq_nil_iff_forall_not_mem]
              intro q hq
              rcases (hmemn q).1 hq with h'' | ⟨h'', _⟩
              · rw [h'] at h''; simp at h''
              · have hl1 : p.length = 1 := by unfold deg at hd; omega
                obtain ⟨a, ha⟩ := List.length_eq_one_iff.1 hl1
                rw [ha] at h''; exact h'' rfl
            · obtain ⟨r, _, hr, hred⟩ := hent.map q ((hmemn q).2 (Or.inl hq))
              apply hq0
              rw [hred.sem hA hφ, hpn r hr]
              simp [P]
        obtain ⟨t, ht, htr⟩ := ht3 hgne hnoloss φ hφ
        obtain ⟨t', ht', htr'⟩ := hsp2 t ht φ htr
        obtain ⟨b, hb, hbx⟩ := hq2 t' ht'
        obtain ⟨x, hx, hxr⟩ := hb.2 φ htr'
        exact ⟨x, hbx x hx, hxr⟩
    obtain ⟨N, outs, ho1, ho2⟩ := mapM_fuel
      (f := fun fuel => chContext A (realTable A fuel) polys p needed)
      (Q := fun e out => (∀ x ∈ out, TOut K A con polys x) ∧ (∀ φ : R →+* K,
        Realises A φ e.1 → Enough φ p rest → ∃ x ∈ out, Realises A φ x.2)) exp hmain
    obtain ⟨hq1, hq2⟩ := forall₂_flatten ho2
    refine ⟨N + 1, outs.flatten, ?_, ?_, ?_⟩
    · intro fuel hf
      obtain ⟨f, rfl⟩ : ∃ f, fuel = f + 1 := ⟨fuel - 1, by omega⟩
      rw [hunf, if_neg hn, he1]
      show (exp.mapM _ >>= fun rs => (Except.ok rs.flatten : Except QErr _)) = _
      rw [ho1 f (by omega)]
      rfl
    · intro x hx
      obtain ⟨t, _, b, hb, hxb⟩ := hq1 x hx
      exact hb.1 x hxb
    · intro φ hφ hen
      obtain ⟨e, he, her⟩ := he3 φ hφ
      obtain ⟨b, hb, hbx⟩ := hq2 e he
      obtain ⟨x, hx, hxr⟩ := hb.2 φ her hen
      exact ⟨x, hbx x hx, hxr⟩

theorem realTable_ok [IsDomain R] [CharZero R] {A : MAlg R} (hA : AlgOK A) :
    ∀ (d k : ℕ) (polys : List (List R)) (con : Ctx R), CtxOK A con → GoalOK A con polys →
      (∀ p ∈ polys, p.length ≤ d) → cnt d polys ≤ k → RTSpec K A con polys := by
  intro d
  induction d using Nat.strong_induction_on with
  | _ d ihd =>
  intro k
  induction k with
  | zero =>
    intro polys con hc hg hlen hcnt
    by_cases hne : polys = []
    · subst hne
      exact ⟨0, [], fun fuel _ => by cases fuel <;> rfl, by simp, fun h => absurd rfl h⟩
    · have hlen' : ∀ p ∈ polys, p.length < d := by
        intro p hp
        refine lt_of_le_of_ne (hlen p hp) fun h => ?_
        unfold cnt at hcnt
        rw [Nat.le_zero, Finset.card_eq_zero] at hcnt
        have : p ∈ (polys.filter fun p => decide (p.length = d)).toFinset := by simp [hp, h]
        rw [hcnt] at this
        simp at this
      obtain ⟨p, hp⟩ := List.exists_mem_of_ne_nil _ hne
      have hd : 0 < d := lt_of_le_of_lt (Nat.zero_le _) (hlen' p hp)
      exact ihd (d - 1) (by omega) (cnt (d - 1) polys) polys con hc hg
        (fun q hq => by have := hlen' q hq; omega) le_rfl
  | succ k ihk =>
    intro polys con hc hg hlen hcnt
    obtain ⟨hnd, hsort, hmem⟩ := degSet_spec polys
    by_cases hpne : polys = []
    · subst hpne
      exact ⟨0, [], fun fuel _ => by cases fuel <;> rfl, by simp, fun h => absurd rfl h⟩
    cases hds : degSet polys with
    | nil =>
      obtain ⟨p0, hp0⟩ := List.exists_mem_of_ne_nil _ hpne
      have := (hmem p0).2 hp0
      rw [hds] at this
      simp at this
    | cons p rest =>
    rw [hds] at hnd hsort hmem
    rw [List.nodup_cons] at hnd
    rw [List.pairwise_cons] at hsort
    have hpm : p ∈ polys := (hmem p).1 (by simp)
    have hrestp : ∀ q ∈ rest, q ∈ polys := fun q hq => (hmem q).1 (by simp [hq])
    have hmax : ∀ q ∈ polys, q.length ≤ p.length := by
      intro q hq
      rcases List.mem_cons.1 ((hmem q).2 hq) with rfl | hq
      · exact le_rfl
      · exact hsort.1 q hq
    obtain ⟨N, out, h1, h2, h3⟩ := realTable_step (K := K) hA hc hg.1 hds (fun _ => hg.2 p hpm hmax) (by
      intro goal con' hc' hg' hgl
      by_cases hpd : p.length = d
      · apply ihk goal con' hc' hg' fun q hq => (hgl q hq).1.trans hpd.le
        have hsub : (goal.filter fun q => decide (q.length = d)).toFinset ⊆
            (polys.filter fun q => decide (q.length = d)).toFinset.erase p := by
          intro q hq
          simp only [List.mem_toFinset, List.mem_filter, decide_eq_true_eq] at hq
          have hqr := (hgl q hq.1).2 (hq.2.trans hpd.symm)
          rw [Finset.mem_erase]
          refine ⟨?_, ?_⟩
          · rintro rfl; exact hnd.1 hqr
          · simp only [List.mem_toFinset, List.mem_filter, decide_eq_true_eq]
            exact ⟨hrestp q hqr, hq.2⟩
        have h1 := Finset.card_le_card hsub
        have hpin : p ∈ (polys.filter fun q => decide (q.length = d)).toFinset := by
          simp only [List.mem_toFinset, List.mem_filter, decide_eq_true_eq]
          exact ⟨hpm, hpd⟩
        rw [Finset.card_erase_of_mem hpin] at h1
        unfold cnt at hcnt ⊢
        omega
      · have := hlen p hpm
        exact ihd p.length (by omega) (cnt p.length goal) goal con' hc' hg' (fun q hq => (hgl q hq).1) le_rfl)
    refine ⟨N, out, h1, h2, fun _ hnl φ hφ => h3 φ hφ ?_⟩
    by_cases hd : 0 < deg p
    · exact Or.inl hd
    right
    by_cases hr : rest = []
    · exact Or.inl hr
    right
    by_contra hall
    push Not at hall
    have hrn : ∀ q ∈ rest, q = [] := by
      intro q hq
      by_contra h0
      have h1 := List.length_pos_iff.2 h0
      have h2 := hsort.1 q hq
      have hl1 : q.length = 1 := by unfold deg at hd; omega
      obtain ⟨a, rfl⟩ := List.length_eq_one_iff.1 hl1
      have hqs : Stop A con [a] := hg.2 _ (hrestp _ hq) fun x hx => by
        have := hmax x hx
        unfold deg at hd
        simp only [List.length_singleton]
        omega
      obtain ⟨s, hs1, _, hs0⟩ := hqs.sign_ne hA hc (hg.1 _ (hrestp _ hq)) h0
      have h3 := hall _ hq
      rw [P_const φ (by simp [deg])] at h3
      have h4 : φ a = 0 := by simpa using h3
      have h5 := hφ.signCtx hs1
      rw [show lc [a] = a from rfl, h4, sg_zero] at h5
      exact hs0 h5
    have hpne' : p ≠ [] := by
      rintro rfl
      obtain ⟨x, hx⟩ := List.exists_mem_of_ne_nil _ hr
      have := hrn x hx
      subst this
      exact hnd.1 hx
    have hlen1 : p.length = 1 := by
      have := List.length_pos_iff.2 hpne'
      unfold deg at hd; omega
    obtain ⟨a, ha⟩ := List.length_eq_one_iff.1 hlen1
    apply hnl a
    intro q
    rw [← hmem, List.mem_cons, ha]
    refine or_congr Iff.rfl ⟨hrn q, ?_⟩
    rintro rfl
    obtain ⟨x, hx⟩ := List.exists_mem_of_ne_nil _ hr
    have := hrn x hx
    rwa [this] at hx

/-- Every goal with known leading coefficients is solved. -/
theorem realTable_spec [IsDomain R] [CharZero R] {A : MAlg R} (hA : AlgOK A) {polys : List (List R)}
    {con : Ctx R} (hc : CtxOK A con) (hg : GoalOK A con polys) : RTSpec K A con polys := by
  have hle : ∀ p ∈ polys, p.length ≤ (polys.map List.length).sum := fun p hp =>
    List.single_le_sum (by simp) _ (List.mem_map_of_mem hp)
  exact realTable_ok hA _ _ polys con hc hg hle le_rfl

/-- The highest polynomial that is taken first has a known leading coefficient or is a constant. -/
theorem realTable_first [IsDomain R] [CharZero R] {A : MAlg R} (hA : AlgOK A) {polys : List (List R)}
    {con : Ctx R} (hc : CtxOK A con) (hcans : ∀ q ∈ polys, Canon q) {p : List R} {rest : List (List R)}
    (hds : degSet polys = p :: rest) (hstop : 0 < deg p → Stop A con p) :
    ∃ N out, (∀ fuel ≥ N, realTable A fuel polys con = .ok out) ∧ (∀ x ∈ out, TOut K A con polys x) ∧
      ∀ φ : R →+* K, Realises A φ con → Enough φ p rest → ∃ x ∈ out, Realises A φ x.2 :=
  realTable_step hA hc hcans hds hstop fun _ _ hc' hg' _ => realTable_spec hA hc' hg'

end Verif.Qe
