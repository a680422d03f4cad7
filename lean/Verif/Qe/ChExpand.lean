import Verif.Qe.ChExtSem

/-!
# `expand_context`
-/

set_option linter.unusedSectionVars false

namespace Verif.Qe

open Polynomial Verif.Alg

variable {R : Type} [CommRing R] [DecidableEq R]
variable {K : Type*} [Field K] [LinearOrder K] [IsStrictOrderedRing K] [PolyIVT K]

/-- What is required of the signs of scalars. -/
structure AlgOK (A : MAlg R) : Prop where
  zero : A.hasVar 0 = false
  sign0 : A.sign 0 = 0
  sign3 : ∀ k, A.hasVar k = false → Sign3 (A.sign k)
  ne : ∀ k, k ≠ 0 → A.hasVar k = false → A.sign k ≠ 0

/-- A context gives signs to coefficients with parameters. -/
structure CtxOK (A : MAlg R) (c : Ctx R) : Prop where
  val : ∀ k s, dGet c k = some s → Sign3 s
  var : ∀ k s, dGet c k = some s → A.hasVar k = true
  nodup : (c.map Prod.fst).Nodup

/-- A context with more signs. -/
def CtxExt (c c' : Ctx R) : Prop := ∀ k s, dGet c k = some s → dGet c' k = some s

theorem CtxExt.refl (c : Ctx R) : CtxExt c c := fun _ _ h => h

theorem CtxExt.trans {c c' c'' : Ctx R} (h : CtxExt c c') (h' : CtxExt c' c'') : CtxExt c c'' :=
  fun k s hs => h' k s (h k s hs)

/-- The leading coefficient is known not to vanish (or there is none). -/
def Stop (A : MAlg R) (c : Ctx R) (q : List R) : Prop :=
  A.hasVar (lc q) = false ∨ ∃ s, s ≠ 0 ∧ dGet c (lc q) = some s

/-- Drop leading terms that vanish in the context. -/
inductive Red (A : MAlg R) (c : Ctx R) : List R → List R → Prop
  | stop (q : List R) (h : Stop A c q) : Red A c q q
  | drop (q r : List R) (hv : A.hasVar (lc q) = true) (h0 : dGet c (lc q) = some 0)
      (h : Red A c (pTail q) r) : Red A c q r

theorem Stop.mono {A : MAlg R} {c c' : Ctx R} (hc : CtxExt c c') {q : List R} (h : Stop A c q) :
    Stop A c' q := by
  rcases h with h | ⟨s, h0, h⟩
  · exact Or.inl h
  · exact Or.inr ⟨s, h0, hc _ _ h⟩

theorem Red.mono {A : MAlg R} {c c' : Ctx R} (hc : CtxExt c c') {q r : List R} (h : Red A c q r) :
    Red A c' q r := by
  induction h with
  | stop q h => exact .stop q (h.mono hc)
  | drop q r hv h0 _ ih => exact .drop q r hv (hc _ _ h0) ih

theorem Red.stops {A : MAlg R} {c : Ctx R} {q r : List R} (h : Red A c q r) : Stop A c r := by
  induction h with
  | stop q h => exact h
  | drop q r _ _ _ ih => exact ih

theorem Red.of_stop {A : MAlg R} {c : Ctx R} {q r : List R} (h : Red A c q r) (hs : Stop A c q) :
    r = q := by
  cases h with
  | stop => rfl
  | drop _ _ hv h0 =>
    rcases hs with hs | ⟨s, hs, hs'⟩
    · rw [hs] at hv; cases hv
    · rw [h0] at hs'; cases hs'; exact absurd rfl hs

theorem Red.det {A : MAlg R} {c : Ctx R} {q r : List R} (h : Red A c q r) :
    ∀ {r' : List R}, Red A c q r' → r' = r := by
  induction h with
  | stop q h => intro r' h'; exact h'.of_stop h
  | drop q r hv h0 _ ih =>
    intro r' h'
    cases h' with
    | stop _ hs =>
      rcases hs with hs | ⟨s, hs, hs'⟩
      · rw [hs] at hv; cases hv
      · rw [h0] at hs'; cases hs'; exact absurd rfl hs
    | drop _ _ _ _ h'' => exact ih h''

theorem ne_nil_of_hasVar {A : MAlg R} (hA : AlgOK A) {q : List R} (h : A.hasVar (lc q) = true) :
    q ≠ [] := by
  rintro rfl
  have := hA.zero
  unfold lc at h
  simp only [List.getLastD_nil] at h
  rw [this] at h; cases h

theorem Red.length {A : MAlg R} (hA : AlgOK A) {c : Ctx R} {q r : List R} (h : Red A c q r) :
    r = q ∨ r.length < q.length := by
  induction h with
  | stop => exact Or.inl rfl
  | drop q r hv _ _ ih =>
    have h1 := pTail_length q
    have h2 := List.length_pos_iff.2 (ne_nil_of_hasVar hA hv)
    right
    rcases ih with rfl | ih <;> omega

theorem Red.canon {A : MAlg R} {c : Ctx R} {q r : List R} (h : Red A c q r) (hq : Canon q) :
    Canon r := by
  induction h with
  | stop => exact hq
  | drop q r _ _ _ ih => exact ih (pTail_canon q)

theorem Red.sem {A : MAlg R} (hA : AlgOK A) {c : Ctx R} {φ : R →+* K} (hR : Realises A φ c)
    {q r : List R} (h : Red A c q r) : P φ q = P φ r := by
  induction h with
  | stop => rfl
  | drop q r hv h0 _ ih =>
    rw [← ih]
    exact P_tail φ (ne_nil_of_hasVar hA hv) (sg_eq_zero_iff.1 (hR.ctx _ _ h0).symm)

/-- The sign of a constant is that of its reduction, and known. -/
theorem Red.const {A : MAlg R} (hA : AlgOK A) {c : Ctx R} (hc : CtxOK A c) {q r : List R}
    (h : Red A c q r) (hd : deg q = 0) :
    deg r = 0 ∧ cval A c q = cval A c r ∧ ∃ v, Sign3 v ∧ cval A c q = some v := by
  have hlc : ∀ a : R, lc [a] = a := fun a => rfl
  have hnil : cval A c [] = some 0 := by
    unfold Verif.Qe.cval
    rw [if_pos (by rfl)]
    simp [hA.sign0]
  unfold deg at hd
  cases h with
  | stop _ hs =>
    refine ⟨hd, rfl, ?_⟩
    match q, hd, hs with
    | [], _, _ => exact ⟨0, Or.inr (Or.inl rfl), hnil⟩
    | [a], _, hs =>
      unfold Verif.Qe.cval
      unfold Stop at hs
      rw [hlc] at hs
      show ∃ v, Sign3 v ∧ (if A.hasVar a = false then some (A.sign a) else dGet c a) = some v
      by_cases hv : A.hasVar a = false
      · rw [if_pos hv]
        exact ⟨_, hA.sign3 a hv, rfl⟩
      · rw [if_neg hv]
        rcases hs with hs | ⟨s, _, hs⟩
        · exact absurd hs hv
        · exact ⟨s, hc.val _ _ hs, hs⟩
  | drop _ _ hv h0 h' =>
    match q, hd, hv, h0, h' with
    | [], _, hv, _, _ => exact absurd rfl (ne_nil_of_hasVar hA hv)
    | [a], _, hv, h0, h' =>
      have ht : pTail [a] = [] := by simp [pTail, strip]
      rw [ht] at h'
      have hr : r = [] := h'.of_stop (Or.inl (by simpa [lc] using hA.zero))
      subst hr
      rw [hlc] at hv h0
      have h1 : Verif.Qe.cval A c [a] = some 0 := by
        unfold Verif.Qe.cval
        show (if A.hasVar a = false then some (A.sign a) else dGet c a) = some 0
        rw [if_neg (by rw [hv]; simp), h0]
      exact ⟨rfl, by rw [h1, hnil], 0, Or.inr (Or.inl rfl), h1⟩

theorem Stop.sign {A : MAlg R} {c : Ctx R} {q : List R} (h : Stop A c q) :
    ∃ s, signCtx A c (lc q) = .ok s := by
  unfold Verif.Qe.signCtx
  by_cases hv : A.hasVar (lc q) = false
  · rw [if_pos hv]; exact ⟨_, rfl⟩
  · rw [if_neg hv]
    rcases h with h | ⟨s, _, h⟩
    · exact absurd h hv
    · rw [h]; exact ⟨s, rfl⟩

theorem Stop.sign_ne {A : MAlg R} (hA : AlgOK A) {c : Ctx R} (hc : CtxOK A c) {q : List R}
    (h : Stop A c q) (hq : Canon q) (hne : q ≠ []) :
    ∃ s, signCtx A c (lc q) = .ok s ∧ Sign3 s ∧ s ≠ 0 := by
  unfold Verif.Qe.signCtx
  by_cases hv : A.hasVar (lc q) = false
  · rw [if_pos hv]; exact ⟨_, rfl, hA.sign3 _ hv, hA.ne _ (canon_lc hq hne) hv⟩
  · rw [if_neg hv]
    rcases h with h | ⟨s, h0, h⟩
    · exact absurd h hv
    · rw [h]; exact ⟨s, rfl, hc.val _ _ h, h0⟩

/-- One element of the expanded contexts. -/
structure ExpEntry (A : MAlg R) (c : Ctx R) (needed : List (List R)) (e : Expanded R) : Prop where
  ext : CtxExt c e.1
  ok : CtxOK A e.1
  map : ∀ q ∈ needed, ∃ r, dGet e.2.2 q = some r ∧ r ∈ e.2.1 ∧ Red A e.1 q r
  pols : ∀ r ∈ e.2.1, ∃ q ∈ needed, Red A e.1 q r

/-- `m'` is `m` apart from entries `q ↦ q` for leading coefficients without parameters. -/
def Leak (A : MAlg R) (m m' : Mapping R) : Prop :=
  ∀ q, dGet m' q = dGet m q ∨ (A.hasVar (lc q) = false ∧ dGet m' q = some q)

/-- `m'` is `m` apart from right entries. -/
def Upd (A : MAlg R) (c : Ctx R) (m m' : Mapping R) : Prop :=
  ∀ q, dGet m' q = dGet m q ∨ ∃ r, dGet m' q = some r ∧ Red A c q r

theorem Leak.upd {A : MAlg R} {m m' : Mapping R} (h : Leak A m m') (c : Ctx R) : Upd A c m m' := by
  intro q
  rcases h q with h | ⟨h1, h2⟩
  · exact Or.inl h
  · exact Or.inr ⟨q, h2, .stop q (Or.inl h1)⟩

theorem Leak.trans {A : MAlg R} {m m' m'' : Mapping R} (h : Leak A m m') (h' : Leak A m' m'') :
    Leak A m m'' := by
  intro q
  rcases h' q with h1 | h1
  · rcases h q with h2 | h2
    · exact Or.inl (h1.trans h2)
    · exact Or.inr ⟨h2.1, h1.trans h2.2⟩
  · exact Or.inr h1

theorem Upd.trans {A : MAlg R} {c : Ctx R} {m m' m'' : Mapping R} (h : Upd A c m m')
    (h' : Upd A c m' m'') : Upd A c m m'' := by
  intro q
  rcases h' q with h1 | h1
  · rcases h q with h2 | ⟨r, h2, h3⟩
    · exact Or.inl (h1.trans h2)
    · exact Or.inr ⟨r, h1.trans h2, h3⟩
  · exact Or.inr h1

theorem Upd.set {A : MAlg R} {c : Ctx R} {m : Mapping R} {q r : List R} (h : Red A c q r) :
    Upd A c m (dSet m q r) := by
  intro q'
  rw [dGet_dSet]
  by_cases hq : q = q'
  · subst hq
    rw [if_pos rfl]
    exact Or.inr ⟨r, rfl, h⟩
  · rw [if_neg hq]; exact Or.inl rfl

/-- An entry produced for `head`. -/
structure VarEntry (A : MAlg R) (c : Ctx R) (ps : List (List R)) (head : List R) (m : Mapping R)
    (e : Expanded R) : Prop where
  ext : CtxExt c e.1
  ok : CtxOK A e.1
  red : ∃ r, Red A e.1 head r ∧ e.2.1 = ps ++ [r] ∧ dGet e.2.2 head = some r
  upd : Upd A e.1 m e.2.2

theorem dSet_ext {A : MAlg R} {c : Ctx R} {k : R} {s : ℤ}
    (h : s ∈ (match dGet c k with | some s => [s] | none => [-1, 0, 1])) (hc : CtxOK A c)
    (hv : A.hasVar k = true) :
    CtxExt c (dSet c k s) ∧ CtxOK A (dSet c k s) ∧ dGet (dSet c k s) k = some s := by
  have h3 : Sign3 s := by
    cases hk : dGet c k with
    | none =>
      rw [hk] at h
      simp only [List.mem_cons, List.not_mem_nil, or_false] at h
      exact h
    | some v =>
      rw [hk, List.mem_singleton] at h
      rw [h]; exact hc.val _ _ hk
  refine ⟨?_, ⟨?_, ?_, ?_⟩, by rw [dGet_dSet, if_pos rfl]⟩
  · intro k' v hv
    rw [dGet_dSet]
    by_cases hk : k = k'
    · subst hk
      rw [if_pos rfl]
      rw [hv, List.mem_singleton] at h
      rw [h]
    · rw [if_neg hk, hv]
  · intro k' v hv
    rw [dGet_dSet] at hv
    by_cases hk : k = k'
    · rw [if_pos hk] at hv
      cases hv; exact h3
    · rw [if_neg hk] at hv
      exact hc.val _ _ hv
  · intro k' v hv'
    rw [dGet_dSet] at hv'
    by_cases hk : k = k'
    · rw [← hk]; exact hv
    · rw [if_neg hk] at hv'
      exact hc.var _ _ hv'
  · rw [keys_dSet]
    split
    · exact hc.nodup
    · next hk =>
      rw [List.nodup_append]
      refine ⟨hc.nodup, by simp, ?_⟩
      intro a ha b hb hab
      rw [List.mem_singleton] at hb
      rw [hab, hb] at ha
      exact hk ha

theorem expandVar_ok {A : MAlg R} (hA : AlgOK A) : ∀ (n : ℕ) (c : Ctx R) (ps : List (List R))
    (head : List R) (m : Mapping R), head.length < n → A.hasVar (lc head) = true → Canon head →
    CtxOK A c →
    ∃ out, expandVar A n c ps head m = .ok out ∧ Leak A m out.2 ∧
      (∀ e ∈ out.1, VarEntry A c ps head m e) ∧
      ∀ φ : R →+* K, Realises A φ c → ∃ e ∈ out.1, Realises A φ e.1 := by
  intro n
  induction n with
  | zero => intro c ps head m hn; omega
  | succ n ih =>
    intro c ps head m hn hv hcan hc
    have hne := ne_nil_of_hasVar hA hv
    unfold expandVar
    obtain ⟨out, h1, h2, h3, h4⟩ := foldlM_inv (fun (st : List (Expanded R) × Mapping R) (sign : ℤ) =>
      let c' := dSet c (lc head) sign
      if sign ≠ 0 then .ok (st.1 ++ [(c', ps ++ [head], dSet st.2 head head)], st.2)
      else do
        let tail := pTail head
        let r ← if A.hasVar (lc tail) = false then expandScalar c' tail st.2
          else expandVar A n c' [] tail st.2
        let es ← r.1.mapM fun e =>
          match dGet e.2.2 tail with
          | none => (.error .keyError : Except QErr (Expanded R))
          | some t => .ok (e.1, ps ++ e.2.1, dSet e.2.2 head t)
        .ok (st.1 ++ es, r.2))
      (fun done st => Leak A m st.2 ∧ (∀ e ∈ st.1, VarEntry A c ps head m e) ∧
        ∀ φ : R →+* K, Realises A φ c → sg (φ (lc head)) ∈ done → ∃ e ∈ st.1, Realises A φ e.1)
      (match dGet c (lc head) with | some s => [s] | none => [-1, 0, 1]) [] ([], m)
      ⟨fun _ => Or.inl rfl, by simp, by simp⟩ (by
        intro done sign st ⟨hl, hent, hcov⟩ hsign
        obtain ⟨hext, hok, hget⟩ := dSet_ext hsign hc hv
        have hreal : ∀ φ : R →+* K, Realises A φ c → sg (φ (lc head)) = sign →
            Realises A φ (dSet c (lc head) sign) := by
          intro φ hφ hs
          refine ⟨hφ.ok, ?_⟩
          intro k v hk
          rw [dGet_dSet] at hk
          by_cases hkk : lc head = k
          · rw [if_pos hkk] at hk
            cases hk; rw [← hkk, hs]
          · rw [if_neg hkk] at hk
            exact hφ.ctx k v hk
        show ∃ s', (if sign ≠ 0 then _ else _) = _ ∧ _
        by_cases h0 : sign = 0
        · rw [if_neg (by simp [h0])]
          have hmid : ∃ r, (if A.hasVar (lc (pTail head)) = false then
                expandScalar (dSet c (lc head) sign) (pTail head) st.2
              else expandVar A n (dSet c (lc head) sign) [] (pTail head) st.2) = .ok r ∧
              Leak A st.2 r.2 ∧
              (∀ e ∈ r.1, VarEntry A (dSet c (lc head) sign) [] (pTail head) st.2 e) ∧
              ∀ φ : R →+* K, Realises A φ (dSet c (lc head) sign) → ∃ e ∈ r.1, Realises A φ e.1 := by
            by_cases hv' : A.hasVar (lc (pTail head)) = false
            · rw [if_pos hv']
              refine ⟨([(dSet c (lc head) sign, [pTail head], dSet st.2 (pTail head) (pTail head))],
                dSet st.2 (pTail head) (pTail head)), ?_, ?_, ?_, ?_⟩
              · unfold expandScalar
                rw [if_neg]
                rintro ⟨k1, k2⟩
                exact canon_lc (pTail_canon head) k1 k2
              · intro q
                show dGet (dSet st.2 (pTail head) (pTail head)) q = _ ∨ _ ∧ dGet (dSet st.2 (pTail head) (pTail head)) q = _
                rw [dGet_dSet]
                by_cases hq : pTail head = q
                · rw [if_pos hq]; right; rw [← hq]; exact ⟨hv', rfl⟩
                · rw [if_neg hq]; exact Or.inl rfl
              · intro e he
                rw [List.mem_singleton] at he
                subst he
                have hr : Red A (dSet c (lc head) sign) (pTail head) (pTail head) :=
                  .stop _ (Or.inl hv')
                exact ⟨CtxExt.refl _, hok, ⟨pTail head, hr, rfl, by
                  show dGet (dSet _ _ _) _ = _
                  rw [dGet_dSet, if_pos rfl]⟩, Upd.set hr⟩
              · intro φ hφ
                exact ⟨_, List.mem_singleton_self _, hφ⟩
            · rw [if_neg hv']
              have hlen := pTail_length head
              have hpos := List.length_pos_iff.2 hne
              exact ih _ [] _ _ (by omega) (by simpa using hv') (pTail_canon head) hok
          obtain ⟨r, hr1, hr2, hr3, hr4⟩ := hmid
          have hmap : r.1.mapM (fun e =>
              match dGet e.2.2 (pTail head) with
              | none => (.error .keyError : Except QErr (Expanded R))
              | some t => .ok (e.1, ps ++ e.2.1, dSet e.2.2 head t)) =
              .ok (r.1.map fun e => (e.1, ps ++ e.2.1, dSet e.2.2 head ((dGet e.2.2 (pTail head)).getD []))) := by
            apply mapM_eq_map
            intro e he
            obtain ⟨t, _, _, ht⟩ := (hr3 e he).red
            rw [ht]; rfl
          refine ⟨(st.1 ++ (r.1.map fun e => (e.1, ps ++ e.2.1, dSet e.2.2 head ((dGet e.2.2 (pTail head)).getD []))), r.2), ?_, ?_, ?_, ?_⟩
          · have hfin : (Except.ok r >>= fun r : List (Expanded R) × Mapping R =>
                r.1.mapM (fun e =>
                  match dGet e.2.2 (pTail head) with
                  | none => (.error .keyError : Except QErr (Expanded R))
                  | some t => .ok (e.1, ps ++ e.2.1, dSet e.2.2 head t)) >>= fun es =>
                (Except.ok (st.1 ++ es, r.2) : Except QErr _)) = .ok (st.1 ++ (r.1.map fun e =>
                  (e.1, ps ++ e.2.1, dSet e.2.2 head ((dGet e.2.2 (pTail head)).getD []))), r.2) := by
              simp only [bind, Except.bind, hmap]
            by_cases hv' : A.hasVar (lc (pTail head)) = false
            · rw [if_pos hv'] at hr1
              show (if A.hasVar (lc (pTail head)) = false then _ else _) = _
              rw [if_pos hv', hr1]
              exact hfin
            · rw [if_neg hv'] at hr1
              show (if A.hasVar (lc (pTail head)) = false then _ else _) = _
              rw [if_neg hv', hr1]
              exact hfin
          · exact hl.trans hr2
          · intro e he
            rcases List.mem_append.1 he with he | he
            · exact hent e he
            · obtain ⟨e', he', rfl⟩ := List.mem_map.1 he
              obtain ⟨k1, k2, ⟨t, k3, k4, k5⟩, k6⟩ := hr3 e' he'
              have hred : Red A e'.1 head t :=
                .drop head t hv (k1 _ _ (by rw [hget, h0])) k3
              have hu : Upd A e'.1 m (dSet e'.2.2 head t) :=
                ((hl.upd _).trans k6).trans (Upd.set hred)
              rw [k5, Option.getD_some]
              refine ⟨hext.trans k1, k2, ⟨t, hred, ?_, ?_⟩, hu⟩
              · show ps ++ e'.2.1 = _
                rw [k4]; simp
              · show dGet (dSet _ _ _) _ = _
                rw [dGet_dSet, if_pos rfl]
          · intro φ hφ hs
            rcases List.mem_append.1 hs with hs | hs
            · obtain ⟨e, he, hr⟩ := hcov φ hφ hs
              exact ⟨e, List.mem_append_left _ he, hr⟩
            · rw [List.mem_singleton] at hs
              obtain ⟨e, he, hr⟩ := hr4 φ (hreal φ hφ hs)
              exact ⟨_, List.mem_append_right _ (List.mem_map_of_mem he), hr⟩
        · rw [if_pos h0]
          have hred : Red A (dSet c (lc head) sign) head head := .stop _ (Or.inr ⟨sign, h0, hget⟩)
          refine ⟨_, rfl, hl, ?_, ?_⟩
          · intro e he
            rcases List.mem_append.1 he with he | he
            · exact hent e he
            · rw [List.mem_singleton] at he
              subst he
              exact ⟨hext, hok, ⟨head, hred, rfl, by
                show dGet (dSet _ _ _) _ = _
                rw [dGet_dSet, if_pos rfl]⟩, (hl.upd _).trans (Upd.set hred)⟩
          · intro φ hφ hs
            rcases List.mem_append.1 hs with hs | hs
            · obtain ⟨e, he, hr⟩ := hcov φ hφ hs
              exact ⟨e, List.mem_append_left _ he, hr⟩
            · rw [List.mem_singleton] at hs
              exact ⟨_, List.mem_append_right _ (List.mem_singleton_self _), hreal φ hφ hs⟩)
    refine ⟨out, h1, h2, h3, ?_⟩
    intro φ hφ
    apply h4 φ hφ
    rw [List.nil_append]
    cases hk : dGet c (lc head) with
    | none =>
      simp only [List.mem_cons, List.not_mem_nil, or_false]
      exact sign3_sg _
    | some v =>
      rw [List.mem_singleton, ← hφ.ctx _ _ hk]

theorem mapM_flat {α β : Type} {f : α → Except QErr (List β)} {l : List α}
    (h : ∀ a ∈ l, ∃ b, f a = .ok b) : ∃ bs, l.mapM f = .ok bs ∧
      ∀ x, x ∈ bs.flatten ↔ ∃ a ∈ l, ∃ b, f a = .ok b ∧ x ∈ b := by
  obtain ⟨bs, h1, h2⟩ := mapM_ok f l h
  refine ⟨bs, h1, ?_⟩
  intro x
  clear h h1
  induction h2 with
  | nil => simp
  | cons hab _ ih =>
    rw [List.flatten_cons, List.mem_append, ih]
    constructor
    · rintro (hx | ⟨a, ha, hb⟩)
      · exact ⟨_, by simp, _, hab, hx⟩
      · exact ⟨a, by simp [ha], hb⟩
    · rintro ⟨a, ha, b, hb, hx⟩
      rcases List.mem_cons.1 ha with rfl | ha
      · rw [hab] at hb; cases hb; exact Or.inl hx
      · exact Or.inr ⟨a, ha, b, hb, hx⟩

theorem expandContext_ok {A : MAlg R} (hA : AlgOK A) {c : Ctx R} (hc : CtxOK A c) :
    ∀ needed : List (List R), (∀ q ∈ needed, Canon q) →
    ∃ out, expandContext A c needed = .ok out ∧ (∀ e ∈ out, ExpEntry A c needed e) ∧
      ∀ φ : R →+* K, Realises A φ c → ∃ e ∈ out, Realises A φ e.1 := by
  intro needed
  induction needed with
  | nil =>
    intro _
    refine ⟨_, rfl, ?_, fun φ hφ => ⟨_, List.mem_singleton_self _, hφ⟩⟩
    intro e he
    rw [List.mem_singleton] at he
    subst he
    exact ⟨CtxExt.refl _, hc, by simp, by simp⟩
  | cons head rest ih =>
    intro hcan
    obtain ⟨er, e1, e2, e3⟩ := ih fun q hq => hcan q (by simp [hq])
    unfold expandContext
    rw [e1]
    show ∃ out, (if A.hasVar (lc head) = false then _ else _) = _ ∧ _
    by_cases hv : A.hasVar (lc head) = false
    · rw [if_pos hv, if_neg (by rintro ⟨k1, k2⟩; exact canon_lc (hcan head (by simp)) k1 k2)]
      refine ⟨_, rfl, ?_, ?_⟩
      · intro e he
        obtain ⟨e', he', rfl⟩ := List.mem_map.1 he
        have h := e2 e' he'
        have hs : Red A e'.1 head head := .stop _ (Or.inl hv)
        refine ⟨h.ext, h.ok, ?_, ?_⟩
        · intro q hq
          show ∃ r, dGet (dSet e'.2.2 head head) q = some r ∧ r ∈ head :: e'.2.1 ∧ _
          rw [dGet_dSet]
          by_cases hqh : head = q
          · rw [if_pos hqh]
            subst hqh
            exact ⟨head, rfl, by simp, hs⟩
          · rw [if_neg hqh]
            obtain ⟨r, k1, k2, k3⟩ := h.map q ((List.mem_cons.1 hq).resolve_left fun h => hqh h.symm)
            exact ⟨r, k1, by simp [k2], k3⟩
        · intro r hr
          rcases List.mem_cons.1 hr with rfl | hr
          · exact ⟨r, by simp, hs⟩
          · obtain ⟨q, hq, h'⟩ := h.pols r hr
            exact ⟨q, by simp [hq], h'⟩
      · intro φ hφ
        obtain ⟨e, he, hr⟩ := e3 φ hφ
        exact ⟨_, List.mem_map_of_mem he, hr⟩
    · rw [if_neg hv]
      have hv' : A.hasVar (lc head) = true := by simpa using hv
      have hspec := fun (e : Expanded R) (he : e ∈ er) =>
        expandVar_ok (K := K) hA (head.length + 1) e.1 e.2.1 head e.2.2 (by omega) hv'
          (hcan head (by simp)) (e2 e he).ok
      obtain ⟨rs, h1, h2⟩ := mapM_flat (f := fun e : Expanded R => do
          let r ← expandVar A (head.length + 1) e.1 e.2.1 head e.2.2
          .ok r.1) (l := er) (fun e he => by
            obtain ⟨out, ho, _⟩ := hspec e he
            exact ⟨out.1, by rw [ho]; rfl⟩)
      rw [h1]
      refine ⟨rs.flatten, rfl, ?_, ?_⟩
      · intro x hx
        obtain ⟨e, he, b, hb, hxb⟩ := (h2 x).1 hx
        obtain ⟨out, ho, _, ho2, _⟩ := hspec e he
        rw [ho] at hb
        cases hb
        obtain ⟨k1, k2, ⟨r, k3, k4, k5⟩, k6⟩ := ho2 x hxb
        have h := e2 e he
        refine ⟨h.ext.trans k1, k2, ?_, ?_⟩
        · intro q hq
          by_cases hqh : q = head
          · subst hqh
            exact ⟨r, k5, by rw [k4]; simp, k3⟩
          · obtain ⟨r0, j1, j2, j3⟩ := h.map q ((List.mem_cons.1 hq).resolve_left hqh)
            have j3 := j3.mono k1
            have hm : r0 ∈ x.2.1 := by rw [k4]; simp [j2]
            rcases k6 q with h' | ⟨r', h', h''⟩
            · exact ⟨r0, by rw [h', j1], hm, j3⟩
            · have := j3.det h''
              subst this
              exact ⟨r', h', hm, j3⟩
        · intro r' hr'
          rw [k4] at hr'
          rcases List.mem_append.1 hr' with hr' | hr'
          · obtain ⟨q, hq, h'⟩ := h.pols r' hr'
            exact ⟨q, by simp [hq], h'.mono k1⟩
          · rw [List.mem_singleton] at hr'
            subst hr'
            exact ⟨head, by simp, k3⟩
      · intro φ hφ
        obtain ⟨e, he, hr⟩ := e3 φ hφ
        obtain ⟨out, ho, _, _, ho3⟩ := hspec e he
        obtain ⟨x, hx, hxr⟩ := ho3 φ hr
        exact ⟨x, (h2 x).2 ⟨e, he, out.1, by rw [ho]; rfl, hx⟩, hxr⟩

end Verif.Qe
