import Verif.Qe.ChCopySem

/-!
# `extend_single_table`
-/

set_option linter.unusedSectionVars false

namespace Verif.Qe

variable {R : Type} [CommRing R] [DecidableEq R]

theorem chGap_known {p : List R} {rest : List (List R)} {D : Diagram R ℚ} {a e b : ℚ}
    (h : e ∈ ck D p) : chGap p rest D (a, e, b) = .ok (some D) := by
  unfold chGap
  exact if_pos h

theorem chGaps_cons {p : List R} {rest : List (List R)} {D D1 : Diagram R ℚ} {t : ℚ × ℚ × ℚ}
    {ts : List (ℚ × ℚ × ℚ)} (h : chGap p rest D t = .ok (some D1)) :
    chGaps p rest (t :: ts) D = chGaps p rest ts D1 := by
  conv_lhs => unfold chGaps
  rw [h]; rfl

theorem chCols_ok (rest : List (List R)) (a b col : ℚ) (hac : a ≠ col) (hbc : b ≠ col)
    (D : Diagram R ℚ) (hck : ∀ q ∈ rest, col ∈ ck D q) :
    ∃ D', rest.foldlM (fun D q => do
        let v ← dRead D q col
        .ok (dWrite (dWrite D q a v) q b v)) D = .ok D' ∧
      Written D D' (fun q i => q ∈ rest ∧ (i = a ∨ i = b)) (fun q _ => cv D q col) := by
  obtain ⟨D', h1, h2⟩ := foldlM_written (κ := ℚ) (fun D q => do
        let v ← dRead D q col
        .ok (dWrite (dWrite D q a v) q b v)) (fun x q i => q = x ∧ (i = a ∨ i = b))
        (fun q _ => cv D q col) D rest (by
    intro done D' q hq hW hd
    have hck1 : col ∈ ck D' q := (hW.ck _ _).2 (Or.inl (hck q hq))
    have hv1 : cv D' q col = cv D q col := hW.old _ _ (by
      rintro ⟨x, _, _, h | h⟩
      · exact hac h.symm
      · exact hbc h.symm)
    refine ⟨dWrite (dWrite D' q a (cv D q col)) q b (cv D q col), ?_, ?_⟩
    · simp only [dRead_ok hck1, hv1]
      rfl
    · refine ((hW.write q a _ rfl).write q b _ rfl).congr ?_ (fun _ _ _ => rfl)
      intro q' i
      simp only [List.mem_append, List.mem_singleton]
      constructor
      · rintro ((⟨x, hx, h⟩ | ⟨rfl, rfl⟩) | ⟨rfl, rfl⟩)
        · exact ⟨x, Or.inl hx, h⟩
        · exact ⟨_, Or.inr rfl, rfl, Or.inl rfl⟩
        · exact ⟨_, Or.inr rfl, rfl, Or.inr rfl⟩
      · rintro ⟨x, hx | rfl, h⟩
        · exact Or.inl (Or.inl ⟨x, hx, h⟩)
        · rcases h with ⟨rfl, rfl | rfl⟩
          · exact Or.inl (Or.inr ⟨rfl, rfl⟩)
          · exact Or.inr ⟨rfl, rfl⟩)
  refine ⟨D', h1, h2.congr ?_ fun _ _ _ => rfl⟩
  intro q i
  constructor
  · rintro ⟨x, hx, rfl, h⟩; exact ⟨hx, h⟩
  · rintro ⟨hq, h⟩; exact ⟨q, hq, rfl, h⟩

/-- What one interval column does. -/
theorem chGap_gap {p : List R} {rest : List (List R)} (hp : p ∉ rest) {D : Diagram R ℚ}
    {l g e : ℚ} (hlg : l < g) (hge : g < e)
    (hck : ∀ q ∈ rest, g ∈ ck D q) (hpl : l ∈ ck D p ∧ Sign3 (cv D p l))
    (hpe : e ∈ ck D p ∧ Sign3 (cv D p e)) (hpg : g ∉ ck D p) :
    (cv D p l = 0 ∧ cv D p e = 0 ∧ chGap p rest D (l, g, e) = .ok none) ∨
    (¬ (cv D p l = 0 ∧ cv D p e = 0) ∧ (cv D p l = cv D p e ∨ cv D p l * cv D p e = 0) ∧
      chGap p rest D (l, g, e) = .ok (some (dWrite D p g (sgnInt (cv D p l + cv D p e))))) ∨
    (cv D p l ≠ cv D p e ∧ cv D p l * cv D p e ≠ 0 ∧ ∃ D', chGap p rest D (l, g, e) = .ok (some D') ∧
      Written D D' (fun q i => (q = p ∧ (i = (g + l) / 2 ∨ i = g ∨ i = (g + e) / 2)) ∨
        (q ∈ rest ∧ (i = (g + l) / 2 ∨ i = (g + e) / 2)))
        (fun q i => if q = p then (if i = g then 0 else if i = (g + l) / 2 then cv D p l else cv D p e)
          else cv D q g)) := by
  have hunf : chGap p rest D (l, g, e) =
      if cv D p l = 0 ∧ cv D p e = 0 then .ok none
      else if cv D p l + cv D p e = 0 then do
        let E ← rest.foldlM (fun D q => do
          let v ← dRead D q g
          .ok (dWrite (dWrite D q ((g + l) / 2) v) q ((g + e) / 2) v))
          (dWrite (dWrite (dWrite D p ((g + l) / 2) (cv D p l)) p ((g + e) / 2) (cv D p e)) p g 0)
        .ok (some E)
      else .ok (some (dWrite D p g (sgnInt (cv D p l + cv D p e)))) := by
    unfold chGap
    simp only [dRead_ok hpl.1, dRead_ok hpe.1]
    rw [if_neg (show g ∉ (dRow D p).map Prod.fst from hpg), add_comm l g]
    rfl
  rw [hunf]
  by_cases h1 : cv D p l = 0 ∧ cv D p e = 0
  · exact Or.inl ⟨h1.1, h1.2, if_pos h1⟩
  rw [if_neg h1]
  by_cases h2 : cv D p l + cv D p e = 0
  swap
  · refine Or.inr (Or.inl ⟨h1, ?_, by rw [if_neg h2]⟩)
    rcases hpl.2 with h | h | h <;> rcases hpe.2 with h' | h' | h' <;> rw [h, h'] at h1 h2 ⊢ <;>
      simp at h1 h2 ⊢
  right; right
  have h2' : cv D p l ≠ cv D p e ∧ cv D p l * cv D p e ≠ 0 := by
    rcases hpl.2 with h | h | h <;> rcases hpe.2 with h' | h' | h' <;> rw [h, h'] at h1 h2 ⊢ <;>
      simp at h1 h2 ⊢
  refine ⟨h2'.1, h2'.2, ?_⟩
  rw [if_pos h2]
  set f : List R → ℚ → ℤ := fun q i => if q = p then
    (if i = g then 0 else if i = (g + l) / 2 then cv D p l else cv D p e) else cv D q g with hf
  have n1 : (g + l) / 2 ≠ g := by intro h; linarith
  have n2 : (g + e) / 2 ≠ g := by intro h; linarith
  have n3 : (g + e) / 2 ≠ (g + l) / 2 := by intro h; linarith
  obtain ⟨D3, hD3, hW3⟩ : ∃ D3, D3 =
      dWrite (dWrite (dWrite D p ((g + l) / 2) (cv D p l)) p ((g + e) / 2) (cv D p e)) p g 0 ∧
      Written D D3 (fun q i => q = p ∧ (i = (g + l) / 2 ∨ i = g ∨ i = (g + e) / 2)) f := by
    refine ⟨_, rfl, ?_⟩
    refine ((((Written.refl D f).write p ((g + l) / 2) (cv D p l) ?_).write p
      ((g + e) / 2) (cv D p e) ?_).write p g 0 ?_).congr ?_ (fun _ _ _ => rfl)
    · rw [hf]; simp [n1]
    · rw [hf]; simp [n2, n3]
    · rw [hf]; simp
    · intro q i
      constructor
      · rintro (((h | ⟨h, h'⟩) | ⟨h, h'⟩) | ⟨h, h'⟩)
        · exact h.elim
        · exact ⟨h, Or.inl h'⟩
        · exact ⟨h, Or.inr (Or.inr h')⟩
        · exact ⟨h, Or.inr (Or.inl h')⟩
      · rintro ⟨h, h' | h' | h'⟩
        · exact Or.inl (Or.inl (Or.inr ⟨h, h'⟩))
        · exact Or.inr ⟨h, h'⟩
        · exact Or.inl (Or.inr ⟨h, h'⟩)
  rw [← hD3]
  clear hD3 hunf
  clear_value f
  have hqp : ∀ q ∈ rest, q ≠ p := by rintro q hq rfl; exact hp hq
  obtain ⟨D', e1, e2⟩ := chCols_ok rest ((g + l) / 2) ((g + e) / 2) g n1 n2 D3 (fun q hq =>
    (hW3.ck q g).2 (Or.inl (hck q hq)))
  refine ⟨D', ?_, ?_⟩
  · rw [e1]; rfl
  have hold : ∀ q ∈ rest, ∀ i, cv D3 q i = cv D q i := by
    intro q hq i
    exact hW3.old _ _ fun h => hqp q hq h.1
  refine ⟨?_, ?_, ?_, ?_, ?_⟩
  · intro q i hW
    rcases hW with ⟨rfl, h⟩ | ⟨hq, h⟩
    · rw [e2.old _ _ fun h' => hp h'.1, hW3.val q i ⟨rfl, h⟩]
    · rw [e2.val q i ⟨hq, h⟩, hold q hq, hf]
      simp [hqp q hq]
  · intro q i hW
    rw [e2.old _ _ fun h => hW (Or.inr h), hW3.old _ _ fun h => hW (Or.inl h)]
  · intro q i
    rw [e2.ck, hW3.ck, or_assoc]
  · intro q
    rw [e2.keys, hW3.keys, or_assoc]
    constructor
    · rintro (h | ⟨i, h⟩ | ⟨i, h⟩)
      · exact Or.inl h
      · exact Or.inr ⟨i, Or.inl h⟩
      · exact Or.inr ⟨i, Or.inr h⟩
    · rintro (h | ⟨i, h | h⟩)
      · exact Or.inl h
      · exact Or.inr (Or.inl ⟨i, h⟩)
      · exact Or.inr (Or.inr ⟨i, h⟩)
  · intro hn
    exact e2.nodup (hW3.nodup hn)

theorem chGapFold {p : List R} {rest : List (List R)} (hp : p ∉ rest) :
    ∀ (gs : List (ℚ × ℚ)) (l : ℚ) (D : Diagram R ℚ), 0 ≤ l → SegChain l gs →
    (∀ q ∈ rest, 0 ∈ ck D q ∧ ∀ i ∈ segCols gs, i ∈ ck D q) →
    (∀ i, i = l ∨ i ∈ segEnds gs → i ∈ ck D p ∧ Sign3 (cv D p i)) →
    (∀ g ∈ segGaps gs, g ∉ ck D p) →
    (SegBad D p l gs ∧ chGaps p rest (triples (l :: segCols gs)) D = .ok none) ∨
    ∃ D' gs', chGaps p rest (triples (l :: segCols gs)) D = .ok (some D') ∧
      (∀ q i, i ≤ l → cv D' q i = cv D q i) ∧
      (∀ q, q ∉ rest → q ≠ p → ∀ i, i ∈ ck D' q ↔ i ∈ ck D q) ∧
      (∀ q, q ∈ rest ∨ q = p → ∀ i, i ∈ ck D' q ↔ i ∈ ck D q ∨ i ∈ segCols gs') ∧
      (∀ q, q ∈ keys D' ↔ q ∈ keys D) ∧
      ((∀ q, (ck D q).Nodup) → ∀ q, (ck D' q).Nodup) ∧
      SegExt D D' p rest l gs gs' := by
  intro gs
  induction gs with
  | nil =>
    intro l D _ _ _ _ _
    refine Or.inr ⟨D, [], rfl, by simp, by simp, by simp [segCols], by simp, id, .nil l⟩
  | cons x gs ih =>
    obtain ⟨g, e⟩ := x
    rintro l D hl0 ⟨c1, c2, c3⟩ hck hpcks hgaps
    have hpck : ∀ i, i = l ∨ i ∈ segEnds ((g, e) :: gs) → i ∈ ck D p := fun i hi => (hpcks i hi).1
    have hpk : p ∈ keys D := mem_keys_of_ck (hpck l (Or.inl rfl))
    have hle : l < e := c1.trans c2
    -- the list of the loop
    have htr : triples (l :: segCols ((g, e) :: gs)) = (l, g, e) :: triples (g :: e :: segCols gs) := rfl
    have hgc : g ∈ segCols ((g, e) :: gs) := by simp [segCols]
    have hec : e ∈ segCols ((g, e) :: gs) := by simp [segCols]
    have hsub : ∀ i ∈ segCols gs, i ∈ segCols ((g, e) :: gs) := by
      intro i hi; simp [segCols, hi]
    -- from a diagram after the first interval
    have hnext : ∀ D1 : Diagram R ℚ, e ∈ ck D1 p →
        chGaps p rest (triples (g :: e :: segCols gs)) D1 =
          chGaps p rest (triples (e :: segCols gs)) D1 := by
      intro D1 h1
      cases gs with
      | nil => rfl
      | cons x gs =>
        obtain ⟨g', e'⟩ := x
        show chGaps p rest ((g, e, g') :: triples (e :: segCols ((g', e') :: gs))) D1 = _
        exact chGaps_cons (chGap_known h1)
    have hbadcongr : ∀ D1 : Diagram R ℚ, (∀ q, ∀ i, e ≤ i → cv D1 q i = cv D q i) →
        SegBad D1 p e gs → SegBad D p e gs := by
      intro D1 h2
      have : ∀ (gs : List (ℚ × ℚ)) (e' : ℚ), e ≤ e' → SegChain e' gs → SegBad D1 p e' gs →
          SegBad D p e' gs := by
        intro gs
        induction gs with
        | nil => intro _ _ _ h; exact h
        | cons x gs ih =>
          obtain ⟨g, e2⟩ := x
          rintro e' he' ⟨a, b, c⟩ (h | h)
          · left
            rw [← h2 p e' he', ← h2 p e2 (by linarith)]; exact h
          · right
            exact ih e2 (by linarith) c h
      exact this gs e le_rfl c3
    -- combination
    have hfinish : ∀ (D1 : Diagram R ℚ) (new : List (ℚ × ℚ)),
        chGap p rest D (l, g, e) = .ok (some D1) →
        (∀ q, ∀ i, e ≤ i → cv D1 q i = cv D q i) → (∀ q, ∀ i, i ≤ l → cv D1 q i = cv D q i) →
        (∀ q, q ∉ rest → q ≠ p → ∀ i, i ∈ ck D1 q ↔ i ∈ ck D q) →
        (∀ q, q ∈ rest ∨ q = p → ∀ i, i ∈ ck D1 q ↔ i ∈ ck D q ∨ i ∈ segCols new) →
        (∀ q, q ∈ keys D1 ↔ q ∈ keys D) → ((∀ q, (ck D q).Nodup) → ∀ q, (ck D1 q).Nodup) →
        (∀ (D' : Diagram R ℚ) (gs' : List (ℚ × ℚ)), (∀ q i, i ≤ e → cv D' q i = cv D1 q i) →
          SegExt D D' p rest e gs gs' → SegExt D D' p rest l ((g, e) :: gs) (new ++ gs')) →
        (∀ gs' : List (ℚ × ℚ), segCols (new ++ gs') = segCols new ++ segCols gs') →
        (∀ i ∈ segCols new, i ≤ e) →
        (SegBad D p l ((g, e) :: gs) ∧
          chGaps p rest (triples (l :: segCols ((g, e) :: gs))) D = .ok none) ∨
        ∃ D' gs', chGaps p rest (triples (l :: segCols ((g, e) :: gs))) D = .ok (some D') ∧
          (∀ q i, i ≤ l → cv D' q i = cv D q i) ∧
          (∀ q, q ∉ rest → q ≠ p → ∀ i, i ∈ ck D' q ↔ i ∈ ck D q) ∧
          (∀ q, q ∈ rest ∨ q = p → ∀ i, i ∈ ck D' q ↔ i ∈ ck D q ∨ i ∈ segCols gs') ∧
          (∀ q, q ∈ keys D' ↔ q ∈ keys D) ∧
          ((∀ q, (ck D q).Nodup) → ∀ q, (ck D' q).Nodup) ∧
          SegExt D D' p rest l ((g, e) :: gs) gs' := by
      intro D1 new hstep hge hle' hck0 hck1 hkeys hnd hext happ hnew
      have hckD1 : ∀ q, q ∈ rest ∨ q = p → ∀ i, i ∈ ck D q → i ∈ ck D1 q := fun q hq i hi =>
        (hck1 q hq i).2 (Or.inl hi)
      have hfold : chGaps p rest (triples (l :: segCols ((g, e) :: gs))) D =
          chGaps p rest (triples (e :: segCols gs)) D1 := by
        rw [htr, chGaps_cons hstep]
        exact hnext D1 (hckD1 p (Or.inr rfl) e (hpck e (Or.inr (by simp [segEnds]))))
      rw [hfold]
      rcases ih e D1 (by linarith) c3 (fun q hq => ⟨hckD1 q (Or.inl hq) 0 (hck q hq).1,
          fun i hi => hckD1 q (Or.inl hq) i ((hck q hq).2 i (hsub i hi))⟩)
          (by
            intro i hi
            have hi' : i = l ∨ i ∈ segEnds ((g, e) :: gs) := by
              right
              simp only [segEnds, List.mem_cons]
              exact hi
            refine ⟨hckD1 p (Or.inr rfl) i (hpck i hi'), ?_⟩
            rw [hge p i]
            · exact (hpcks i hi').2
            · rcases hi with rfl | hi
              · exact le_rfl
              · exact (segChain_lt c3 i (segEnds_sub i hi)).le)
          (by
            intro g' hg' hc
            have hlt : e < g' := segChain_lt c3 g' (segGaps_sub _ hg')
            rcases (hck1 p (Or.inr rfl) g').1 hc with h | h
            · exact hgaps g' (by rw [segGaps]; exact List.mem_cons_of_mem _ hg') h
            · have := hnew g' h; linarith) with ⟨hb, herr⟩ | ⟨D', gs', r1, r2, r3, r4, r5, r6, r7⟩
      · exact Or.inl ⟨Or.inr (hbadcongr D1 hge hb), herr⟩
      · refine Or.inr ⟨D', new ++ gs', r1, ?_, ?_, ?_, ?_, ?_, ?_⟩
        · intro q i hi
          rw [r2 q i (by linarith), hle' q i hi]
        · intro q h1 h2 i
          rw [r3 q h1 h2, hck0 q h1 h2]
        · intro q hq i
          rw [r4 q hq, hck1 q hq, happ, List.mem_append, or_assoc]
        · intro q
          rw [r5, hkeys]
        · exact fun h => r6 (hnd h)
        · refine hext D' gs' r2 (r7.congr c3 ?_)
          intro q _ i hi
          rcases hi with rfl | hi
          · exact hge q i le_rfl
          · exact hge q i (le_of_lt (segChain_lt c3 i hi))
    rcases chGap_gap hp c1 c2 (fun q hq => (hck q hq).2 g hgc)
      (hpcks l (Or.inl rfl)) (hpcks e (Or.inr (by simp [segEnds]))) (hgaps g (by simp [segGaps])) with
      ⟨b1, b2, b3⟩ | ⟨b1, b2, b3⟩ | ⟨b1, b2, D1, b3, hW⟩
    · refine Or.inl ⟨Or.inl ⟨b1, b2⟩, ?_⟩
      rw [htr]; unfold chGaps; rw [b3]; rfl
    · have hrec : e ∈ ck D p := hpck e (Or.inr (by simp [segEnds]))
      refine hfinish _ [(g, e)] b3 ?_ ?_ ?_ ?_ ?_ ?_ ?_ (fun _ => rfl)
        (by simp [segCols]; exact c2.le)
      · intro q i hi
        rw [cv_dWrite, if_neg]
        rintro ⟨_, rfl⟩; linarith
      · intro q i hi
        rw [cv_dWrite, if_neg]
        rintro ⟨_, rfl⟩; linarith
      · intro q _ h2 i
        rw [mem_ck_dWrite]
        constructor
        · rintro (h | ⟨h, _⟩)
          · exact h
          · exact absurd h h2
        · exact Or.inl
      · intro q hq i
        rw [mem_ck_dWrite]
        simp only [segCols, List.mem_cons, List.not_mem_nil, or_false]
        constructor
        · rintro (h | ⟨_, h⟩)
          · exact Or.inl h
          · exact Or.inr (Or.inl h)
        · rintro (h | rfl | rfl)
          · exact Or.inl h
          · rcases hq with hq | hq
            · exact Or.inl ((hck q hq).2 i hgc)
            · exact Or.inr ⟨hq, rfl⟩
          · rcases hq with hq | hq
            · exact Or.inl ((hck q hq).2 i hec)
            · subst hq; exact Or.inl hrec
      · intro q
        rw [mem_keys_dWrite]
        constructor
        · rintro (rfl | h)
          · exact hpk
          · exact h
        · exact Or.inr
      · exact fun h => nodup_ck_dWrite D p g _ h
      · intro D' gs' hD' hext
        have hqv : ∀ q ∈ rest, ∀ i, i ≤ e → cv D' q i = cv D q i := by
          intro q hq i hi
          rw [hD' q i hi, cv_dWrite, if_neg]
          rintro ⟨rfl, _⟩; exact hp hq
        refine .keep l g e gs gs' b1 b2 ?_ ?_ (fun q hq => hqv q hq g c2.le)
          (fun q hq => hqv q hq e le_rfl) hext
        · rw [hD' p g c2.le, cv_dWrite, if_pos ⟨rfl, rfl⟩]
        · rw [hD' p e le_rfl, cv_dWrite, if_neg]
          rintro ⟨_, h⟩; linarith
    · have hrec : e ∈ ck D p := hpck e (Or.inr (by simp [segEnds]))
      have hout : ∀ q i, i ≤ l ∨ e ≤ i → cv D1 q i = cv D q i := by
        intro q i hi
        apply hW.old
        rintro (⟨_, h⟩ | ⟨_, h⟩)
        · rcases h with rfl | rfl | rfl <;> rcases hi with hi | hi <;> linarith
        · rcases h with rfl | rfl <;> rcases hi with hi | hi <;> linarith
      refine hfinish D1 [((g + l) / 2, g), ((g + e) / 2, e)] b3 ?_ ?_ ?_ ?_ ?_ hW.nodup ?_
        (fun _ => rfl) (by
          intro i hi
          simp only [segCols, List.mem_cons, List.not_mem_nil, or_false] at hi
          rcases hi with rfl | rfl | rfl | rfl <;> linarith)
      · intro q i hi; exact hout q i (Or.inr hi)
      · intro q i hi; exact hout q i (Or.inl hi)
      · intro q h1 h2 i
        rw [hW.ck]
        constructor
        · rintro (h | ⟨h, _⟩ | ⟨h, _⟩)
          · exact h
          · exact absurd h h2
          · exact absurd h h1
        · exact Or.inl
      · intro q hq i
        rw [hW.ck]
        simp only [segCols, List.mem_cons, List.not_mem_nil, or_false]
        constructor
        · rintro (h | ⟨_, h⟩ | ⟨_, h⟩)
          · exact Or.inl h
          · rcases h with h | h | h
            · exact Or.inr (Or.inl h)
            · exact Or.inr (Or.inr (Or.inl h))
            · exact Or.inr (Or.inr (Or.inr (Or.inl h)))
          · rcases h with h | h
            · exact Or.inr (Or.inl h)
            · exact Or.inr (Or.inr (Or.inr (Or.inl h)))
        · rintro (h | h | h | h | h)
          · exact Or.inl h
          · rcases hq with hq | hq
            · exact Or.inr (Or.inr ⟨hq, Or.inl h⟩)
            · exact Or.inr (Or.inl ⟨hq, Or.inl h⟩)
          · rcases hq with hq | hq
            · left; rw [h]; exact (hck q hq).2 g hgc
            · exact Or.inr (Or.inl ⟨hq, Or.inr (Or.inl h)⟩)
          · rcases hq with hq | hq
            · exact Or.inr (Or.inr ⟨hq, Or.inr h⟩)
            · exact Or.inr (Or.inl ⟨hq, Or.inr (Or.inr h)⟩)
          · rcases hq with hq | hq
            · left; rw [h]; exact (hck q hq).2 e hec
            · left; rw [h, hq]; exact hrec
      · intro q
        rw [hW.keys]
        constructor
        · rintro (h | ⟨i, ⟨rfl, _⟩ | ⟨h, _⟩⟩)
          · exact h
          · exact hpk
          · exact mem_keys_of_ck (hck q h).1
        · exact Or.inl
      · intro D' gs' hD' hext
        have n1 : (g + l) / 2 ≠ g := by intro h; linarith
        have n2 : (g + e) / 2 ≠ g := by intro h; linarith
        have n3 : (g + e) / 2 ≠ (g + l) / 2 := by intro h; linarith
        have hqp : ∀ q ∈ rest, q ≠ p := by rintro q hq rfl; exact hp hq
        refine .split l g e gs gs' b1 b2 ?_ ?_ ?_ ?_ ?_ ?_ ?_ ?_ hext
        · rw [hD' p _ (by linarith), hW.val p _ (Or.inl ⟨rfl, Or.inl rfl⟩), if_pos rfl, if_neg n1,
            if_pos rfl]
        · rw [hD' p _ c2.le, hW.val p _ (Or.inl ⟨rfl, Or.inr (Or.inl rfl)⟩), if_pos rfl, if_pos rfl]
        · rw [hD' p _ (by linarith), hW.val p _ (Or.inl ⟨rfl, Or.inr (Or.inr rfl)⟩), if_pos rfl,
            if_neg n2, if_neg n3]
        · rw [hD' p _ le_rfl, hout p e (Or.inr le_rfl)]
        · intro q hq
          rw [hD' q _ (by linarith), hW.val q _ (Or.inr ⟨hq, Or.inl rfl⟩), if_neg (hqp q hq)]
        · intro q hq
          rw [hD' q _ c2.le, hW.old]
          rintro (⟨h, _⟩ | ⟨_, h⟩)
          · exact hqp q hq h
          · rcases h with h | h
            · exact n1 h.symm
            · exact n2 h.symm
        · intro q hq
          rw [hD' q _ (by linarith), hW.val q _ (Or.inr ⟨hq, Or.inr rfl⟩), if_neg (hqp q hq)]
        · intro q hq
          rw [hD' q _ le_rfl, hout q e (Or.inr le_rfl)]

end Verif.Qe
