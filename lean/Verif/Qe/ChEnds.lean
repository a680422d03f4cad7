import Verif.Qe.ChGeneric

/-!
# Which exceptions `real_full` of `cohenhorm.py` raises
-/

set_option linter.unusedSectionVars false

open Polynomial Verif.Alg

namespace Verif.Qe

variable {R : Type} [CommRing R] [DecidableEq R]

/-- All rows of a table have the same columns. -/
structure Even (T : Table R) (rows : List (List R)) (C : ℚ → Prop) : Prop where
  keys : ∀ q, q ∈ keys T ↔ q ∈ rows
  ck : ∀ q ∈ rows, ∀ i, i ∈ ck T q ↔ C i

theorem triples_sub : ∀ (l : List ℚ), ∀ c ∈ triples l, c.2.1 ∈ l ∧ c.2.2 ∈ l
  | [], c, h => by simp [triples] at h
  | [_], c, h => by simp [triples] at h
  | [_, _], c, h => by simp [triples] at h
  | a :: b :: d :: l, c, h => by
    rw [triples, List.mem_cons] at h
    rcases h with rfl | h
    · simp
    · obtain ⟨h2, h3⟩ := triples_sub (b :: d :: l) c h
      exact ⟨List.mem_cons_of_mem _ h2, List.mem_cons_of_mem _ h3⟩

theorem copyRoots_run {T : Table R} {rows : List (List R)} {C : ℚ → Prop} (h : Even T rows C) (h0 : C 0)
    {tr : List (ℚ × ℚ × ℚ)} (htr : ∀ t ∈ tr, C t.2.1 ∧ C t.2.2) (p : List R) {cc : List ℚ} (hcc : ∀ i ∈ cc, C i) :
    ∃ cc', copyRoots T tr cc p = .ok cc' ∧ ∀ i ∈ cc', C i := by
  unfold copyRoots
  by_cases hp : p ∈ rows
  · obtain ⟨row, hrow⟩ := (dGet_isSome T p).1 ((h.keys p).2 hp)
    rw [hrow]
    simp only [dRead_ok ((h.ck p hp 0).2 h0)]
    show ∃ cc', (if cv T p 0 = 0 then _ else _) = _ ∧ _
    by_cases hz : cv T p 0 = 0
    · rw [if_pos hz]; exact ⟨cc, rfl, hcc⟩
    · rw [if_neg hz]
      refine (foldlM_inv _ (fun (_ : List (ℚ × ℚ × ℚ)) cc => ∀ i ∈ cc, C i) tr [] cc hcc ?_)
      intro _ t cc hcc ht
      simp only [dRead_ok ((h.ck p hp _).2 (htr t ht).1)]
      show ∃ cc', (if cv T p t.2.1 = 0 then _ else _) = _ ∧ _
      split
      · refine ⟨_, rfl, fun i hi => ?_⟩
        rw [mem_colAdd, mem_colAdd] at hi
        rcases hi with rfl | rfl | hi
        · exact (htr t ht).2
        · exact (htr t ht).1
        · exact hcc i hi
      · exact ⟨_, rfl, hcc⟩
  · rw [dGet_none T p fun h' => hp ((h.keys p).1 h')]
    exact ⟨cc, rfl, hcc⟩

theorem copyTable_run {A : MAlg R} {c : Ctx R} {T : Table R} {rows : List (List R)} {C : ℚ → Prop}
    (h : Even T rows C) (h0 : C 0) (h1 : C 1) (hrows : rows ≠ []) {needed : List (List R)} (hne : needed ≠ [])
    (hpos : ∀ p ∈ needed, 0 < deg p → p ∈ rows)
    (hconst : ∀ p ∈ needed, deg p = 0 → ∃ v, cval A c p = some v) :
    ∃ T' D, copyTable A T needed c = .ok T' ∧ Even T' needed D := by
  have hlook : ∀ p ∈ needed, ∀ i, C i → tableLookup A T p i c = .ok (tv A c T p i) := by
    intro p hp i hi
    unfold tableLookup tv
    by_cases hd : 0 < deg p
    · rw [if_pos hd, if_pos hd]
      exact dRead_ok ((h.ck p (hpos p hp hd) i).2 hi)
    · rw [if_neg hd, if_neg hd]
      obtain ⟨v, hv⟩ := hconst p hp (by omega)
      unfold cval at hv ⊢
      by_cases hh : hasVariable A p = false
      · rw [if_pos hh, if_pos hh]; rfl
      · rw [if_neg hh] at hv
        rw [if_neg hh, if_neg hh, hv]; rfl
  unfold copyTable
  rw [if_neg hne]
  cases hT : T with
  | nil =>
    exfalso
    obtain ⟨q, hq⟩ := List.exists_mem_of_ne_nil rows hrows
    have := (h.keys q).2 hq
    rw [hT] at this
    simp [Verif.Qe.keys] at this
  | cons y T0 =>
    obtain ⟨q0, row⟩ := y
    have hq0 : q0 ∈ rows := (h.keys q0).1 (by rw [hT]; simp [Verif.Qe.keys])
    have hrow : ∀ i ∈ sortedCols row, C i := by
      intro i hi
      unfold sortedCols at hi
      rw [List.mem_insertionSort] at hi
      have h2 : row.map Prod.fst = Verif.Qe.ck T q0 := by
        unfold Verif.Qe.ck dRow
        rw [hT]
        simp [dGet]
      rw [h2] at hi
      exact (h.ck q0 hq0 i).1 hi
    simp only
    rw [← hT]
    obtain ⟨cc, e1, e2⟩ := foldlM_inv (copyRoots T (triples (sortedCols row)))
      (fun (_ : List (List R)) cc => ∀ i ∈ cc, C i) needed [] [0, 1]
      (by
        intro i hi
        simp only [List.mem_cons, List.not_mem_nil, or_false] at hi
        rcases hi with rfl | rfl
        · exact h0
        · exact h1)
      (fun _ p cc hcc _ => copyRoots_run h h0 (fun t ht => ⟨hrow _ (triples_sub _ t ht).1, hrow _ (triples_sub _ t ht).2⟩)
        p hcc)
    rw [e1]
    set first := cc.getD 0 0 with hfirst
    set b := (cc.getD 1 0 + first) / 2 with hb
    have hf : C first := by
      rw [hfirst]
      cases cc with
      | nil => exact h0
      | cons a cc => exact e2 a (by simp)
    set rowOf : List R → List (ℚ × ℤ) := fun p =>
      dSet (cc.map fun col => (col, tv A c T p col)) b (tv A c T p first) with hrowOf
    have hfold : (needed.foldlM (fun ret p => do
        let cells ← cc.mapM fun col => do
          let v ← tableLookup A T p col c
          .ok (col, v)
        let v ← tableLookup A T p first c
        .ok (dSet ret p (dSet cells b v))) [] : Except QErr (Table R)) =
        .ok (needed.foldl (fun ret p => dSet ret p (rowOf p)) []) := by
      apply foldlM_eq_foldl
      intro ret p hp
      have hcells : (cc.mapM fun col => do
          let v ← tableLookup A T p col c
          .ok (col, v) : Except QErr (List (ℚ × ℤ))) =
          .ok (cc.map fun col => (col, tv A c T p col)) := by
        apply mapM_eq_map
        intro i hi
        rw [hlook p hp i (e2 i hi)]; rfl
      rw [hcells]
      show (do
        let v ← tableLookup A T p first c
        .ok (dSet ret p (dSet (cc.map fun col => (col, tv A c T p col)) b v)) : Except QErr _) = _
      rw [hlook p hp first hf]
      rfl
    refine ⟨needed.foldl (fun ret p => dSet ret p (rowOf p)) [], fun i => i ∈ cc ∨ i = b, hfold, ?_, ?_⟩
    · intro q
      unfold Verif.Qe.keys
      rw [dGet_isSome, dGet_foldl_dSet]
      constructor
      · rintro ⟨v, hv⟩
        by_contra hq
        rw [if_neg hq] at hv; cases hv
      · intro hq; exact ⟨_, if_pos hq⟩
    · intro q hq i
      unfold Verif.Qe.ck dRow
      rw [dGet_foldl_dSet, if_pos hq]
      show i ∈ (rowOf q).map Prod.fst ↔ _
      rw [hrowOf]
      have : (Prod.fst ∘ fun col => (col, tv A c T q col)) = id := rfl
      simp only [keys_dSet, List.map_map, this, List.map_id]
      split
      · next hm => exact ⟨Or.inl, fun h' => h'.elim id fun h' => h' ▸ hm⟩
      · rw [List.mem_append, List.mem_singleton]

section
variable {K : Type} [Field K] [LinearOrder K] [IsStrictOrderedRing K] [PolyIVT K]

/-- One table: it is extended whenever the sign of the leading coefficient is known. -/
theorem chTable_run [IsDomain R] [CharZero R] {A : MAlg R} {con : Ctx R} {polys : List (List R)} {p : List R}
    {needed : List (List R)} {e : Expanded R} {goal : List (List R)} (hd : 0 < deg p)
    (h : CtxHyp A con polys p needed e goal) {t : Table R × Ctx R} (ht : TOut K A e.1 goal t) :
    (signCtx A t.2 (lc p) = .error .noKey ∧ chTable A polys p needed e.2.1 e.2.2 t = .error .noKey) ∨
    ∃ out, chTable A polys p needed e.2.1 e.2.2 t = .ok out ∧ ∀ x ∈ out, ∃ C, Even x.1 polys C := by
  obtain ⟨T, c⟩ := t
  obtain ⟨gs, hT, hext, hcok, hsem⟩ := ht
  simp only at hT hext hcok hsem
  have hA := h.alg
  have hTkeys : p ∉ T.map Prod.fst := fun hp => h.newg ((hT.keys p).1 hp)
  cases hs : signCtx A c (lc p) with
  | error err =>
    left
    have herr : err = .noKey := by
      unfold signCtx at hs
      split at hs
      · cases hs
      · split at hs
        · cases hs; rfl
        · cases hs
    subst herr
    refine ⟨rfl, ?_⟩
    unfold chTable
    simp only
    rw [if_neg hTkeys]
    unfold extendSingle
    simp only [bind, Except.bind, hs]
  | ok s =>
    right
    have hs3 : Sign3 s := by
      unfold signCtx at hs
      split at hs
      · next hv => cases hs; exact hA.sign3 _ hv
      · split at hs
        · cases hs
        · next hd => cases hs; exact hcok.val _ _ hd
    have hE := h.extRun hT hext hs hs3
    unfold chTable
    simp only
    rw [if_neg hTkeys]
    obtain ⟨E0, b, _, _, ⟨_, hnone, _⟩ | ⟨E, gs', hE1, hkE, hcE, h1E, _⟩⟩ := extendSingle_run hE
    · rw [hnone]
      exact ⟨[], rfl, by simp⟩
    · rw [hE1]
      show ∃ out, (do
        let mb ← tableMapBack E needed e.2.2
        let T ← copyTable A mb polys c
        .ok [(T, c)]) = .ok out ∧ _
      have hmap : ∀ q ∈ needed, ∃ r, dGet e.2.2 q = some r ∧ r ∈ e.2.1 ∧ Red A c q r := fun q hq => by
        obtain ⟨r, h1, h2, h3⟩ := h.entry.map q hq
        exact ⟨r, h1, h2, h3.mono hext⟩
      obtain ⟨mb, m1, m2, m3, m4⟩ := tableMapBack_ok (T := E) (needed := needed) (mapping := e.2.2)
        (fun q hq => by
          obtain ⟨r, h1, h2, _⟩ := hmap q hq
          exact ⟨r, h1, (hkE r).2 (by simp [h2])⟩)
      rw [m1]
      show ∃ out, (do
        let T ← copyTable A mb polys c
        .ok [(T, c)]) = .ok out ∧ _
      have hrow : ∀ q ∈ needed ++ (p :: e.2.1), ∃ r ∈ p :: e.2.1, dRow mb q = dRow E r := by
        intro q hq
        by_cases hqn : q ∈ needed
        · obtain ⟨r, h1, h2, h3⟩ := hmap q hqn
          exact ⟨r, by simp [h2], m3 q hqn r h1⟩
        · exact ⟨q, (List.mem_append.1 hq).resolve_left hqn, m4 q hqn⟩
      have hmb : Even mb (needed ++ (p :: e.2.1)) (fun i => i = 0 ∨ i ∈ segCols gs') := by
        refine ⟨fun q => ?_, fun q hq i => ?_⟩
        · rw [m2, hkE, List.mem_append]
        · obtain ⟨r, hr, h1⟩ := hrow q hq
          unfold Verif.Qe.ck
          rw [h1]
          exact hcE r hr i
      obtain ⟨T', D, c1, c2⟩ := copyTable_run (A := A) (c := c) hmb (Or.inl rfl) (Or.inr h1E) (by simp) h.pne
        (fun q hq _ => by
          rcases h.split q hq with rfl | hq
          · simp
          · simp [hq])
        (fun q hq hd' => by
          rcases h.split q hq with rfl | hq
          · omega
          · obtain ⟨r, _, _, h3⟩ := hmap q hq
            obtain ⟨_, _, v, _, hv⟩ := h3.const hA hcok hd'
            exact ⟨v, hv⟩)
      rw [c1]
      refine ⟨[(T', c)], rfl, fun x hx => ?_⟩
      rw [List.mem_singleton] at hx
      subst hx
      exact ⟨D, c2⟩

/-- For a polynomial of degree 1 the sign of the leading coefficient is known: it is the derivative. -/
theorem sign_linear [IsDomain R] [CharZero R] {A : MAlg R} {con : Ctx R} {polys : List (List R)} {p : List R}
    {needed : List (List R)} {e : Expanded R} {goal : List (List R)} (hd : deg p = 1)
    (h : CtxHyp A con polys p needed e goal) {t : Table R × Ctx R} (ht : TOut K A e.1 goal t) :
    ∃ s, signCtx A t.2 (lc p) = .ok s := by
  obtain ⟨gs, hT, hext, hcok, hsem⟩ := ht
  have hd' : 0 < deg p := by omega
  have hlc : lc (derivative p) = lc p := by rw [(lc_derivative h.canon hd').2, hd]; simp
  obtain ⟨r, _, _, hred⟩ := h.entry.map _ (h.der hd')
  have hred := hred.mono hext
  rw [← hlc]
  cases hred with
  | stop _ hst => exact hst.sign
  | drop _ _ hv h0 _ =>
    unfold signCtx
    rw [if_neg (by rw [hv]; simp), h0]
    exact ⟨_, rfl⟩

theorem mapM_noKey {α β : Type} {f : α → Except QErr β} {Q : α → β → Prop} : ∀ {l : List α},
    (∀ a ∈ l, f a = .error .noKey ∨ ∃ b, f a = .ok b ∧ Q a b) →
    l.mapM f = .error .noKey ∨ ∃ bs, l.mapM f = .ok bs ∧ List.Forall₂ Q l bs := by
  intro l
  induction l with
  | nil => intro _; exact Or.inr ⟨[], rfl, .nil⟩
  | cons a l ih =>
    intro h
    rw [List.mapM_cons]
    rcases h a (by simp) with h' | ⟨b, h', hQ⟩
    · rw [h']; exact Or.inl rfl
    · rw [h']
      rcases ih fun x hx => h x (by simp [hx]) with hl | ⟨bs, hl, hf⟩
      · left
        simp only [bind, Except.bind, hl]
      · right
        refine ⟨b :: bs, ?_, .cons hQ hf⟩
        simp only [bind, Except.bind, hl]; rfl

theorem mapM_noKey' {α β : Type} {f : α → Except QErr β} : ∀ {l : List α}, l.mapM f = .error .noKey →
    ∃ a ∈ l, f a = .error .noKey := by
  intro l
  induction l with
  | nil => intro h; cases h
  | cons a l ih =>
    intro h
    rw [List.mapM_cons] at h
    cases ha : f a with
    | error e =>
      simp only [ha, bind, Except.bind] at h
      cases h
      exact ⟨a, by simp, ha⟩
    | ok b =>
      simp only [ha, bind, Except.bind] at h
      split at h
      · next e he =>
        cases h
        obtain ⟨x, hx, hx'⟩ := ih he
        exact ⟨x, by simp [hx], hx'⟩
      · cases h

/-- `_real_table` returns, or a sign is missing; for degree 1 it returns. -/
theorem realTable_ends [IsDomain R] [CharZero R] {A : MAlg R} (hA : AlgOK A) {polys : List (List R)}
    {con : Ctx R} (hc : CtxOK A con) (hcans : ∀ q ∈ polys, Canon q) {p : List R} {rest : List (List R)}
    (hds : degSet polys = p :: rest) (hd : 0 < deg p) :
    ∃ N, ∀ fuel ≥ N, (1 < deg p ∧ realTable A fuel polys con = .error .noKey) ∨
      ∃ out, realTable A fuel polys con = .ok out ∧ ∀ x ∈ out, ∃ C, Even x.1 polys C := by
  obtain ⟨hnd, hsort, hmem⟩ := degSet_spec polys
  rw [hds] at hnd hsort hmem
  rw [List.nodup_cons] at hnd
  rw [List.pairwise_cons] at hsort
  have hpm : p ∈ polys := (hmem p).1 (by simp)
  have hpne : polys ≠ [] := List.ne_nil_of_mem hpm
  obtain ⟨p0, ps, hpolys⟩ : ∃ p0 ps, polys = p0 :: ps := by
    cases h : polys with
    | nil => exact absurd h hpne
    | cons p0 ps => exact ⟨p0, ps, rfl⟩
  have hcan := hcans p hpm
  have hunf : ∀ fuel, realTable A (fuel + 1) polys con =
      if neededOf p rest = [] then initialTable A p con
      else (expandContext A con (neededOf p rest) >>= fun exp =>
        (exp.mapM (chContext A (realTable A fuel) polys p (neededOf p rest)) >>= fun rs =>
          (Except.ok rs.flatten : Except QErr _))) := by
    intro fuel
    conv_lhs => rw [hpolys]; unfold realTable
    rw [← hpolys, hds]
  have hpne' : p ≠ [] := ne_nil_of_deg hd
  have hn : neededOf p rest ≠ [] := by
    intro h
    have : derivative p ∈ neededOf p rest := (mem_neededOf p rest _).2 (Or.inr ⟨(lc_derivative hcan hd).1, rfl⟩)
    rw [h] at this
    simp at this
  set needed := neededOf p rest with hneeded
  have hmemn : ∀ q, q ∈ needed ↔ q ∈ rest ∨ (derivative p ≠ [] ∧ q = derivative p) :=
    fun q => mem_neededOf p rest q
  have hplen : 0 < p.length := List.length_pos_iff.2 hpne'
  have hrestp : ∀ q ∈ rest, q ∈ polys := fun q hq => (hmem q).1 (by simp [hq])
  have hncan : ∀ q ∈ needed, Canon q := by
    intro q hq
    rcases (hmemn q).1 hq with hq | ⟨_, rfl⟩
    · exact hcans q (hrestp q hq)
    · exact derivative_canon p
  have hnle : ∀ q ∈ needed, q.length ≤ p.length := by
    intro q hq
    rcases (hmemn q).1 hq with hq | ⟨_, rfl⟩
    · exact hsort.1 q hq
    · have := derivative_length p; omega
  have hnp : ∀ q ∈ needed, q.length = p.length → q ∈ rest := by
    intro q hq hl
    rcases (hmemn q).1 hq with hq | ⟨_, rfl⟩
    · exact hq
    · have := derivative_length p; omega
  have hnew : p ∉ needed := fun h => hnd.1 (hnp p h rfl)
  obtain ⟨exp, he1, he2, he3⟩ := expandContext_ok (K := ℝ) hA hc needed hncan
  obtain ⟨N, hN⟩ := eventually_list (l := exp) (P := fun e fuel =>
      (1 < deg p ∧ chContext A (realTable A fuel) polys p needed e = .error .noKey) ∨
      ∃ out, chContext A (realTable A fuel) polys p needed e = .ok out ∧ ∀ x ∈ out, ∃ C, Even x.1 polys C) (by
    intro e he
    have hent := he2 e he
    obtain ⟨rems, N, tables, hr1, ht1, ht2, ht3, hctx, htab, hnil⟩ := context_ok (K := ℝ) hA hnd hmem hpne hcan hpne' hmemn
      hncan hnle hnp hnew hent
    refine ⟨N, fun fuel hf => ?_⟩
    have hsplit : splitUnknown A p tables = tables := by
      unfold splitUnknown
      rw [if_neg (by unfold deg at hd; omega)]
    have hunfc : chContext A (realTable A fuel) polys p needed e =
        (tables.mapM (chTable A polys p needed e.2.1 e.2.2) >>= fun rs => .ok rs.flatten) := by
      unfold chContext
      rw [hr1]
      show (realTable A fuel _ e.1 >>= fun tables => _) = _
      rw [ht1 fuel hf]
      show ((splitUnknown A p tables).mapM _ >>= fun rs => (Except.ok rs.flatten : Except QErr _)) = _
      rw [hsplit]
    rw [hunfc]
    rcases mapM_noKey (f := chTable A polys p needed e.2.1 e.2.2) (l := tables)
      (Q := fun _ out => ∀ x ∈ out, ∃ C, Even x.1 polys C) (fun t ht => by
        rcases chTable_run hd (hctx (htab t ht)) (ht2 t ht) with h | h
        · exact Or.inl h.2
        · exact Or.inr h) with hm | ⟨rs, hm, hQ⟩
    · left
      refine ⟨?_, by rw [hm]; rfl⟩
      by_contra hd1
      rcases mapM_noKey' hm with ⟨t, ht, hte⟩
      rcases chTable_run hd (hctx (htab t ht)) (ht2 t ht) with h | ⟨_, h, _⟩
      · obtain ⟨s, hs⟩ := sign_linear (by omega) (hctx (htab t ht)) (ht2 t ht)
        rw [h.1] at hs
        cases hs
      · rw [hte] at h; cases h
    · right
      refine ⟨rs.flatten, by rw [hm]; rfl, ?_⟩
      intro x hx
      obtain ⟨_, _, b, hb, hxb⟩ := (forall₂_flatten hQ).1 x hx
      exact hb x hxb)
  refine ⟨N + 1, fun fuel hf => ?_⟩
  obtain ⟨f, rfl⟩ : ∃ f, fuel = f + 1 := ⟨fuel - 1, by omega⟩
  rw [hunf, if_neg hn, he1]
  show (1 < deg p ∧ (exp.mapM (chContext A (realTable A f) polys p needed) >>= fun rs =>
    (Except.ok rs.flatten : Except QErr _)) = _) ∨ ∃ out, (exp.mapM (chContext A (realTable A f) polys p needed) >>= fun rs =>
    (Except.ok rs.flatten : Except QErr _)) = _ ∧ _
  have hNf := hN f (by omega)
  rcases mapM_noKey (f := chContext A (realTable A f) polys p needed) (l := exp)
    (Q := fun _ out => ∀ x ∈ out, ∃ C, Even x.1 polys C) (fun e he => by
      rcases hNf e he with h | h
      · exact Or.inl h.2
      · exact Or.inr h) with hm | ⟨rs, hm, hQ⟩
  · left
    refine ⟨?_, by rw [hm]; rfl⟩
    obtain ⟨e, he, hee⟩ := mapM_noKey' hm
    rcases hNf e he with h | ⟨_, h, _⟩
    · exact h.1
    · rw [hee] at h; cases h
  · right
    refine ⟨rs.flatten, by rw [hm]; rfl, ?_⟩
    intro x hx
    obtain ⟨_, _, b, hb, hxb⟩ := (forall₂_flatten hQ).1 x hx
    exact hb x hxb

theorem chGood_run {T : Table R} {C : ℚ → Prop} {ls es gs : List (List R)}
    (hne : ls ++ es ++ gs ≠ []) (hs : Even T (ls ++ es ++ gs) C) : ∃ b, chGood ls es gs T = .ok b := by
  cases T with
  | nil =>
    obtain ⟨q, hq⟩ := List.exists_mem_of_ne_nil _ hne
    have := (hs.keys q).2 hq
    simp [Verif.Qe.keys] at this
  | cons e T =>
    obtain ⟨q0, row⟩ := e
    have hrow : row.map Prod.fst = ck ((q0, row) :: T) q0 := by
      unfold ck dRow; simp [dGet]
    have hq0 : q0 ∈ ls ++ es ++ gs := (hs.keys q0).1 (by simp [Verif.Qe.keys])
    have hck : ∀ q ∈ ls ++ es ++ gs, ∀ i ∈ ck ((q0, row) :: T) q0, i ∈ ck ((q0, row) :: T) q := by
      intro q hq i hi
      rw [hs.ck q hq, ← hs.ck q0 hq0]; exact hi
    unfold chGood
    simp only [bind, Except.bind]
    rw [hrow, filterCols_ok _ _ _ _ (fun q hq i hi => hck q (by simp [hq]) i hi)]
    simp only
    rw [filterCols_ok _ _ _ _ (fun q hq i hi => hck q (by simp [hq]) i (List.mem_filter.1 hi).1)]
    simp only
    rw [filterCols_ok _ _ _ _ (fun q hq i hi => hck q (by simp [hq]) i
      (List.mem_filter.1 (List.mem_filter.1 hi).1).1)]
    exact ⟨_, rfl⟩

theorem filterM_run {α : Type} {f : α → Except QErr Bool} : ∀ {l : List α}, (∀ a ∈ l, ∃ b, f a = .ok b) →
    ∃ r, l.filterM f = .ok r := by
  have aux : ∀ (l acc : List α), (∀ a ∈ l, ∃ b, f a = .ok b) → ∃ r, l.filterAuxM f acc = .ok r := by
    intro l
    induction l with
    | nil => intro acc _; exact ⟨acc, rfl⟩
    | cons a l ih =>
      intro acc h
      obtain ⟨b, hb⟩ := h a (by simp)
      unfold List.filterAuxM
      simp only [bind, Except.bind, hb]
      exact ih _ fun x hx => h x (by simp [hx])
  intro l h
  obtain ⟨r, hr⟩ := aux l [] h
  refine ⟨r.reverse, ?_⟩
  unfold List.filterM
  simp only [bind, Except.bind, hr]
  rfl

/-- `real_full` returns, or a sign is missing; for degree 1 it returns. -/
theorem chFull_ends [IsDomain R] [CharZero R] {A : MAlg R} (hA : AlgOK A) (ls es gs : List (List R))
    (hcans : ∀ q ∈ ls ++ es ++ gs, Canon q)
    {p : List R} {rest : List (List R)} (hds : degSet (ls ++ es ++ gs) = p :: rest) (hd : 0 < deg p) :
    ∃ N, ∀ fuel ≥ N, (1 < deg p ∧ chFull A fuel ls es gs = .error .noKey) ∨
      ∃ ret, chFull A fuel ls es gs = .ok ret := by
  have hne : ls ++ es ++ gs ≠ [] := by
    intro h
    rw [h] at hds
    cases hds
  obtain ⟨N, hN⟩ := realTable_ends hA (ctxOK_nil A) hcans hds hd
  refine ⟨N, fun fuel hf => ?_⟩
  unfold chFull
  rcases hN fuel hf with ⟨h1, h2⟩ | ⟨out, h1, h2⟩
  · rw [h2]; exact Or.inl ⟨h1, rfl⟩
  · right
    rw [h1]
    obtain ⟨r, hr⟩ := filterM_run (f := fun t : Table R × Ctx R => chGood ls es gs t.1) (l := out) (fun x hx => by
      obtain ⟨C, hC⟩ := h2 x hx
      exact chGood_run hne hC)
    simp only [bind, Except.bind, hr]
    exact ⟨_, rfl⟩

end

end Verif.Qe
