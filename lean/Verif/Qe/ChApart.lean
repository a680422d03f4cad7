import Verif.Qe.ChExpand

/-!
# The contexts of the Cohen-Hörmander tables exclude each other

Contexts are only extended, and where one is replaced by several, these give different signs to some coefficient.
-/

set_option linter.unusedSectionVars false

namespace Verif.Qe

variable {R : Type} [CommRing R] [DecidableEq R]

theorem mapM_forall₂ {ε α β : Type} {f : α → Except ε β} : ∀ (l : List α) (bs : List β), l.mapM f = .ok bs →
    List.Forall₂ (fun a b => f a = .ok b) l bs := by
  intro l
  induction l with
  | nil => intro bs h; rw [List.mapM_nil] at h; cases h; exact .nil
  | cons a l ih =>
    intro bs h
    rw [List.mapM_cons] at h
    simp only [bind, Except.bind] at h
    split at h
    · cases h
    · next b hb =>
      split at h
      · cases h
      · next w hw =>
        cases h
        exact .cons hb (ih w hw)

theorem filterM_sublist {ε α : Type} {f : α → Except ε Bool} {l r : List α} (h : l.filterM f = .ok r) :
    r.Sublist l := by
  have aux : ∀ (l acc r : List α), l.filterAuxM f acc = .ok r → ∃ s : List α, s.Sublist l ∧ r = s.reverse ++ acc := by
    intro l
    induction l with
    | nil => intro acc r h; unfold List.filterAuxM at h; cases h; exact ⟨[], .slnil, rfl⟩
    | cons a l ih =>
      intro acc r h
      unfold List.filterAuxM at h
      simp only [bind, Except.bind] at h
      split at h
      · cases h
      · next b _ =>
        obtain ⟨s, hs, e⟩ := ih _ _ h
        cases b with
        | true => exact ⟨a :: s, hs.cons_cons a, by simpa using e⟩
        | false => exact ⟨s, hs.cons a, by simpa using e⟩
  unfold List.filterM at h
  simp only [bind, Except.bind] at h
  split at h
  · cases h
  · next r' hr =>
    obtain ⟨s, hs, e⟩ := aux _ _ _ hr
    cases h
    rw [e]
    simpa using hs

theorem forall₂_right {α β : Type} {r : α → β → Prop} {l : List α} {m : List β} (h : List.Forall₂ r l m) {b : β}
    (hb : b ∈ m) : ∃ a ∈ l, r a b := by
  induction h with
  | nil => simp at hb
  | cons h _ ih =>
    rcases List.mem_cons.1 hb with rfl | hb
    · exact ⟨_, List.mem_cons_self, h⟩
    · obtain ⟨a, ha, h'⟩ := ih hb
      exact ⟨a, List.mem_cons_of_mem _ ha, h'⟩

/-- all entries are signs -/
def Signs (c : Ctx R) : Prop := ∀ k s, dGet c k = some s → Sign3 s

/-- different signs for some coefficient -/
def Apart (z z' : Ctx R) : Prop := ∃ k s s', dGet z k = some s ∧ dGet z' k = some s' ∧ s ≠ s'

/-- extensions of a context that exclude each other -/
def Spread (c : Ctx R) (l : List (Ctx R)) : Prop := (∀ z ∈ l, CtxExt c z ∧ Signs z) ∧ l.Pairwise Apart

theorem Apart.ext {z z' w w' : Ctx R} (h : Apart z z') (hw : CtxExt z w) (hw' : CtxExt z' w') : Apart w w' := by
  obtain ⟨k, s, s', h1, h2, h3⟩ := h
  exact ⟨k, s, s', hw _ _ h1, hw' _ _ h2, h3⟩

theorem spread_self {c : Ctx R} (h : Signs c) : Spread c [c] := by
  refine ⟨?_, List.pairwise_singleton _ _⟩
  intro z hz
  rw [List.mem_singleton.1 hz]
  exact ⟨.refl _, h⟩

theorem spread_nil (c : Ctx R) : Spread c [] := ⟨by simp, .nil⟩

theorem Spread.mono {c c' : Ctx R} {l : List (Ctx R)} (h : Spread c l) (hc : CtxExt c' c) : Spread c' l :=
  ⟨fun z hz => ⟨hc.trans (h.1 z hz).1, (h.1 z hz).2⟩, h.2⟩

theorem Spread.sublist {c : Ctx R} {l l' : List (Ctx R)} (h : Spread c l) (hl : l'.Sublist l) : Spread c l' :=
  ⟨fun z hz => h.1 z (hl.subset hz), h.2.sublist hl⟩

theorem spread_bind {α β : Type} {c : Ctx R} {es : List α} {bs : List (List β)} (f : α → Ctx R) (g : β → Ctx R)
    (h : Spread c (es.map f)) (hb : List.Forall₂ (fun e b => Spread (f e) (b.map g)) es bs) :
    Spread c (bs.flatten.map g) := by
  induction hb with
  | nil => exact spread_nil c
  | @cons e b es bs h1 h2 ih =>
    rw [List.map_cons] at h
    have hp := List.pairwise_cons.1 h.2
    have ih := ih ⟨fun z hz => h.1 z (List.mem_cons_of_mem _ hz), hp.2⟩
    rw [List.flatten_cons, List.map_append]
    refine ⟨?_, ?_⟩
    · intro z hz
      rcases List.mem_append.1 hz with hz | hz
      · exact ⟨(h.1 _ List.mem_cons_self).1.trans (h1.1 z hz).1, (h1.1 z hz).2⟩
      · exact ih.1 z hz
    · rw [List.pairwise_append]
      refine ⟨h1.2, ih.2, fun z hz z' hz' => ?_⟩
      obtain ⟨x, hx, rfl⟩ := List.mem_map.1 hz'
      obtain ⟨b', hb', hx⟩ := List.mem_flatten.1 hx
      have := forall₂_right h2 hb'
      obtain ⟨e', he', h''⟩ := this
      exact (hp.1 (f e') (List.mem_map.2 ⟨e', he', rfl⟩)).ext (h1.1 z hz).1 (h''.1 _ (List.mem_map.2 ⟨x, hx, rfl⟩)).1

theorem signs_dSet {c : Ctx R} (h : Signs c) (k : R) {s : ℤ} (hs : Sign3 s) : Signs (dSet c k s) := by
  intro k' s' h'
  rw [dGet_dSet] at h'
  split at h'
  · cases h'; exact hs
  · exact h k' s' h'

theorem ctxExt_dSet {c : Ctx R} {k : R} {s : ℤ} (h : dGet c k = none ∨ dGet c k = some s) : CtxExt c (dSet c k s) := by
  intro k' s' h'
  rw [dGet_dSet]
  split
  · next e =>
    subst e
    rcases h with h | h <;> rw [h'] at h <;> cases h
    rfl
  · exact h'

theorem spread_three {c : Ctx R} (h : Signs c) {k : R} (hk : dGet c k = none) :
    Spread c ([(-1 : ℤ), 0, 1].map fun s => dSet c k s) := by
  refine ⟨?_, ?_⟩
  · intro z hz
    obtain ⟨s, hs, rfl⟩ := List.mem_map.1 hz
    refine ⟨ctxExt_dSet (Or.inl hk), signs_dSet h k ?_⟩
    simp only [List.mem_cons, List.not_mem_nil, or_false] at hs
    exact hs
  · rw [List.pairwise_map]
    have : [(-1 : ℤ), 0, 1].Pairwise (· ≠ ·) := by decide
    refine this.imp fun {s s'} hne => ⟨k, s, s', ?_, ?_, hne⟩
    · rw [dGet_dSet, if_pos rfl]
    · rw [dGet_dSet, if_pos rfl]

theorem spread_one {c : Ctx R} (h : Signs c) {k : R} {s : ℤ} (hk : dGet c k = some s) :
    Spread c ([s].map fun s => dSet c k s) := by
  refine ⟨?_, List.pairwise_singleton _ _⟩
  intro z hz
  obtain ⟨s', hs, rfl⟩ := List.mem_map.1 hz
  rw [List.mem_singleton.1 hs]
  exact ⟨ctxExt_dSet (Or.inr hk), signs_dSet h k (h k s hk)⟩

theorem expandScalar_spread {c : Ctx R} (hc : Signs c) {p : List R} {m : Mapping R}
    {r : List (Expanded R) × Mapping R} (h : expandScalar c p m = .ok r) : Spread c (r.1.map Prod.fst) := by
  unfold expandScalar at h
  split at h
  · cases h
  · cases h
    exact spread_self hc

theorem expandTail_spread {c : Ctx R} {tail head : List R} {ps : List (List R)} {st st' : List (Expanded R) × Mapping R}
    (X : Except QErr (List (Expanded R) × Mapping R)) (hX : ∀ q, X = .ok q → Spread c (q.1.map Prod.fst))
    (h : (do
      let r ← X
      let es ← r.1.mapM fun e : Expanded R =>
        match dGet e.2.2 tail with
        | none => .error .keyError
        | some t => .ok (e.1, ps ++ e.2.1, dSet e.2.2 head t)
      .ok (st.1 ++ es, r.2) : Except QErr (List (Expanded R) × Mapping R)) = .ok st') :
    ∃ es : List (Expanded R), st'.1 = st.1 ++ es ∧ Spread c (es.map Prod.fst) := by
  simp only [bind, Except.bind] at h
  split at h
  · cases h
  · next q =>
    split at h
    · cases h
    · next es hes =>
      cases h
      refine ⟨es, rfl, ?_⟩
      have : es.map Prod.fst = q.1.map Prod.fst := by
        have := mapM_forall₂ _ _ hes
        generalize q.1 = l at this
        clear hes hX
        induction this with
        | nil => rfl
        | cons h _ ih' =>
          rw [List.map_cons, List.map_cons, ih']
          split at h
          · cases h
          · cases h; rfl
      rw [this]
      exact hX q rfl

theorem expandVar_spread (A : MAlg R) : ∀ (n : ℕ) (c : Ctx R) (ps : List (List R)) (head : List R) (m : Mapping R)
    (r : List (Expanded R) × Mapping R), Signs c → expandVar A n c ps head m = .ok r → Spread c (r.1.map Prod.fst) := by
  intro n
  induction n with
  | zero => intro c ps head m r _ h; rw [expandVar] at h; cases h
  | succ n ih =>
    intro c ps head m r hc h
    rw [expandVar] at h
    have key : ∀ (signs : List ℤ) (st r : List (Expanded R) × Mapping R),
        (∀ s ∈ signs, Sign3 s) →
        (signs.foldlM (fun st sign =>
          let c' := dSet c (lc head) sign
          if sign ≠ 0 then .ok (st.1 ++ [(c', ps ++ [head], dSet st.2 head head)], st.2)
          else do
            let tail := pTail head
            let r ← if A.hasVar (lc tail) = false then expandScalar c' tail st.2
              else expandVar A n c' [] tail st.2
            let es ← r.1.mapM fun e =>
              match dGet e.2.2 tail with
              | none => .error .keyError
              | some t => .ok (e.1, ps ++ e.2.1, dSet e.2.2 head t)
            .ok (st.1 ++ es, r.2)) st : Except QErr _) = .ok r →
        ∃ bs : List (List (Expanded R)), r.1 = st.1 ++ bs.flatten ∧
          List.Forall₂ (fun s b => Spread (dSet c (lc head) s) (b.map Prod.fst)) signs bs := by
      intro signs
      induction signs with
      | nil => intro st r _ h; cases h; exact ⟨[], by simp, .nil⟩
      | cons s signs ihs =>
        intro st r hs h
        rw [List.foldlM_cons] at h
        have hsc := signs_dSet hc (lc head) (hs s List.mem_cons_self)
        by_cases h0 : s = 0
        · simp only [h0, ne_eq, not_true_eq_false, if_false, bind, Except.bind] at h
          split at h
          · cases h
          · next st' hst =>
            rw [h0] at hsc
            obtain ⟨es, e1, e2⟩ : ∃ es : List (Expanded R), st'.1 = st.1 ++ es ∧
                Spread (dSet c (lc head) 0) (es.map Prod.fst) := by
              split at hst
              · exact expandTail_spread _ (fun q hq => expandScalar_spread hsc hq) hst
              · exact expandTail_spread _ (fun q hq => ih _ _ _ _ _ hsc hq) hst
            obtain ⟨bs, e, hb⟩ := ihs _ _ (fun s' h' => hs s' (List.mem_cons_of_mem _ h')) h
            refine ⟨es :: bs, by rw [e, e1]; simp, .cons ?_ hb⟩
            rw [h0]
            exact e2
        · simp only [ne_eq, h0, not_false_eq_true, if_true, bind, Except.bind] at h
          obtain ⟨bs, e, hb⟩ := ihs _ _ (fun s' h' => hs s' (List.mem_cons_of_mem _ h')) h
          refine ⟨[(dSet c (lc head) s, ps ++ [head], dSet st.2 head head)] :: bs, by rw [e]; simp, .cons ?_ hb⟩
          exact spread_self hsc
    cases hg : dGet c (lc head) with
    | none =>
      rw [hg] at h
      obtain ⟨bs, e, hb⟩ := key [-1, 0, 1] _ _ (by simp [Sign3]) h
      rw [e, List.nil_append]
      exact spread_bind _ _ (spread_three hc hg) hb
    | some s =>
      rw [hg] at h
      obtain ⟨bs, e, hb⟩ := key [s] _ _ (by intro s' h'; rw [List.mem_singleton.1 h']; exact hc _ _ hg) h
      rw [e, List.nil_append]
      exact spread_bind _ _ (spread_one hc hg) hb

theorem expandContext_spread (A : MAlg R) {c : Ctx R} (hc : Signs c) : ∀ (ps : List (List R)) (er : List (Expanded R)),
    expandContext A c ps = .ok er → Spread c (er.map Prod.fst) := by
  intro ps
  induction ps with
  | nil => intro er h; unfold expandContext at h; cases h; exact spread_self hc
  | cons head rest ih =>
    intro er h
    unfold expandContext at h
    simp only [bind, Except.bind] at h
    split at h
    · cases h
    · next er0 h0 =>
      have h1 := ih er0 h0
      split at h
      · split at h
        · cases h
        · cases h
          rw [List.map_map]
          exact h1
      · split at h
        · cases h
        · next rs hrs =>
          cases h
          refine spread_bind _ _ h1 ?_
          have := mapM_forall₂ _ _ hrs
          have hall : ∀ e ∈ er0, Signs e.1 := fun e he => (h1.1 _ (List.mem_map.2 ⟨e, he, rfl⟩)).2
          clear hrs h0 h1
          induction this with
          | nil => exact .nil
          | cons h _ ih' =>
            refine .cons ?_ (ih' fun e he => hall e (List.mem_cons_of_mem _ he))
            split at h
            · cases h
            · next r hr =>
              cases h
              exact expandVar_spread A _ _ _ _ _ _ (hall _ List.mem_cons_self) hr

theorem initialTable_spread (A : MAlg R) {c : Ctx R} (hc : Signs c) {p : List R} {out : List (Table R × Ctx R)}
    (h : initialTable A p c = .ok out) : Spread c (out.map Prod.snd) := by
  unfold initialTable at h
  split at h
  · cases h
  · split at h
    · cases h; exact spread_self hc
    · split at h
      · cases h; exact spread_self hc
      · next hg => cases h; exact spread_three hc hg

theorem splitUnknown_spread (A : MAlg R) {c : Ctx R} (p : List R) {ts : List (Table R × Ctx R)}
    (h : Spread c (ts.map Prod.snd)) : Spread c ((splitUnknown A p ts).map Prod.snd) := by
  unfold splitUnknown
  split
  · rw [List.flatMap_def]
    refine spread_bind _ _ h ?_
    have hall : ∀ t ∈ ts, Signs t.2 := fun t ht => (h.1 _ (List.mem_map.2 ⟨t, ht, rfl⟩)).2
    clear h
    induction ts with
    | nil => exact .nil
    | cons t ts ih =>
      rw [List.map_cons]
      refine .cons ?_ (ih fun t ht => hall t (List.mem_cons_of_mem _ ht))
      have ht := hall t List.mem_cons_self
      split
      · exact spread_self ht
      · next hg => exact spread_three ht hg
  · exact h

theorem chTable_spread (A : MAlg R) {polys : List (List R)} {p : List R} {needed pols : List (List R)}
    {mpg : Mapping R} {t : Table R × Ctx R} (ht : Signs t.2) {out : List (Table R × Ctx R)}
    (h : chTable A polys p needed pols mpg t = .ok out) : Spread t.2 (out.map Prod.snd) := by
  unfold chTable at h
  simp only [bind, Except.bind] at h
  split at h
  · cases h
  · split at h
    · cases h
    · split at h
      · cases h; exact spread_nil _
      · split at h
        · cases h
        · split at h
          · cases h
          · cases h; exact spread_self ht

theorem realTable_spread (A : MAlg R) : ∀ (fuel : ℕ) (ps : List (List R)) (c : Ctx R) (out : List (Table R × Ctx R)),
    Signs c → realTable A fuel ps c = .ok out → Spread c (out.map Prod.snd) := by
  intro fuel
  induction fuel with
  | zero =>
    intro ps c out hc h
    cases ps with
    | nil => rw [realTable] at h; cases h; exact spread_nil c
    | cons p ps => rw [realTable] at h; cases h
  | succ fuel ih =>
    intro ps c out hc h
    cases ps with
    | nil => rw [realTable] at h; cases h; exact spread_nil c
    | cons p ps =>
      rw [realTable] at h
      split at h
      · cases h
      · next maxPoly rest _ =>
        split at h
        · exact initialTable_spread A hc h
        · simp only [bind, Except.bind] at h
          split at h
          · cases h
          · next exp hexp =>
            split at h
            · cases h
            · next rs hrs =>
              cases h
              have h1 := expandContext_spread A hc _ _ hexp
              refine spread_bind _ _ h1 ?_
              have := mapM_forall₂ _ _ hrs
              have hall : ∀ e ∈ exp, Signs e.1 := fun e he => (h1.1 _ (List.mem_map.2 ⟨e, he, rfl⟩)).2
              clear hrs hexp h1
              induction this with
              | nil => exact .nil
              | @cons e b _ _ h _ ih' =>
                refine .cons ?_ (ih' fun e he => hall e (List.mem_cons_of_mem _ he))
                unfold chContext at h
                simp only [bind, Except.bind] at h
                split at h
                · cases h
                · split at h
                  · cases h
                  · next ts hts =>
                    split at h
                    · cases h
                    · next rs' hrs' =>
                      cases h
                      have h2 := splitUnknown_spread A maxPoly (ih _ _ _ (hall e List.mem_cons_self) hts)
                      refine spread_bind _ _ h2 ?_
                      have h3 := mapM_forall₂ _ _ hrs'
                      have hall' : ∀ t ∈ splitUnknown A maxPoly ts, Signs t.2 := fun t ht =>
                        (h2.1 _ (List.mem_map.2 ⟨t, ht, rfl⟩)).2
                      clear h2 hrs'
                      generalize splitUnknown A maxPoly ts = us at h3 hall'
                      induction h3 with
                      | nil => exact .nil
                      | cons h _ ih'' =>
                        exact .cons (chTable_spread A (hall' _ List.mem_cons_self) h)
                          (ih'' fun t ht => hall' t (List.mem_cons_of_mem _ ht))

end Verif.Qe
