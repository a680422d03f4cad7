import Verif.Grf.PropsSmtFile

/-!
# C74: a file has one reading
-/

namespace Verif.Grf

open Verif.Vts (isWs skipWs isNum isAlpha digits1 Ws Digits skipWs_ws skipWs_cons skipWs_wc isNum_iff isWs_iff digits_cons
  digits1_app num_facts)

theorem ws_unique {w w' r r' : List Char} {c c' : Char} (hw : Ws w) (hw' : Ws w') (hc : isWs c = false)
    (hc' : isWs c' = false) (h : w ++ c :: r = w' ++ c' :: r') : w = w' ∧ c = c' ∧ r = r' := by
  have h1 := congrArg skipWs h
  rw [skipWs_wc hw hc, skipWs_wc hw' hc'] at h1
  obtain ⟨rfl, rfl⟩ := List.cons.inj h1
  exact ⟨List.append_cancel_right h, rfl, rfl⟩

theorem run_unique {p : Char → Bool} {a a' r r' : List Char} (h : a ++ r = a' ++ r') (ha : ∀ c ∈ a, p c = true)
    (ha' : ∀ c ∈ a', p c = true) (hr : ∀ c x, r = c :: x → p c = false) (hr' : ∀ c x, r' = c :: x → p c = false) :
    a = a' ∧ r = r' := by
  have key : ∀ (a r : List Char), (∀ c ∈ a, p c = true) → (∀ c x, r = c :: x → p c = false) →
      (a ++ r).takeWhile p = a := by
    intro a r ha hr
    rw [List.takeWhile_append_of_pos ha]
    cases r with
    | nil => simp
    | cons c x => rw [List.takeWhile_cons, hr c x rfl]; simp
  have h1 := congrArg (List.takeWhile p) h
  rw [key a r ha hr, key a' r' ha' hr'] at h1
  subst h1
  exact ⟨rfl, List.append_cancel_left h⟩

theorem digits_num {ds : List Char} (h : Digits ds) : ∀ c ∈ ds, isNum c = true := fun c hc => isNum_iff.2 (h.2 c hc)

theorem text_first' {num : Bool → List Char → List Char → ℚ} {s : List Char} {t : Tm} (h : TermText num s t)
    (r : List Char) : ∃ c x, s ++ r = c :: x ∧ isWs c = false ∧ c ≠ ')' := by
  obtain ⟨c, x, rfl, h1, h2, _⟩ := stext_first h
  exact ⟨c, x ++ r, rfl, h1, h2⟩

theorem ws_term_unique {num : Bool → List Char → List Char → ℚ} {w w' s s' r r' : List Char} {t t' : Tm} (hw : Ws w)
    (hw' : Ws w') (hs : TermText num s t) (hs' : TermText num s' t') (h : w ++ (s ++ r) = w' ++ (s' ++ r')) :
    w = w' ∧ s ++ r = s' ++ r' := by
  obtain ⟨c, x, e, h1, _⟩ := text_first' hs r
  obtain ⟨c', x', e', h1', _⟩ := text_first' hs' r'
  rw [e, e'] at h
  obtain ⟨h2, h3, h4⟩ := ws_unique hw hw' h1 h1' h
  exact ⟨h2, by rw [e, e', h3, h4]⟩

theorem ws_term_rpar {num : Bool → List Char → List Char → ℚ} {w w' s r r' : List Char} {t : Tm} (hw : Ws w)
    (hw' : Ws w') (hs : TermText num s t) : w ++ (s ++ r) ≠ w' ++ ')' :: r' := by
  intro h
  obtain ⟨c, x, e, h1, h2⟩ := text_first' hs r
  rw [e] at h
  exact h2 (ws_unique hw hw' h1 (by decide) h).2.1

theorem num_head {neg : Bool} {ds es r : List Char} (h : Digits ds) :
    ∃ c x, ((if neg then ['~'] else []) ++ (ds ++ '.' :: es)) ++ r = c :: x ∧ c ≠ '(' ∧ (neg = true → c = '~') ∧
      (neg = false → isNum c = true) := by
  obtain ⟨c, x, rfl, hc, _⟩ := digits_cons h
  cases neg with
  | true => exact ⟨'~', _, rfl, by decide, fun _ => rfl, fun h => by cases h⟩
  | false => exact ⟨c, _, rfl, (num_facts hc).2.2.2.2, (fun h => by cases h), fun _ => hc⟩

theorem word_num {neg : Bool} {ds es s r r' : List Char} (h : Digits ds)
    (hs : Word s) (hr' : Ends (.word (String.ofList s)) r')
    (e : ((if neg then ['~'] else []) ++ (ds ++ '.' :: es)) ++ r = s ++ r') : False := by
  obtain ⟨c, x, e1, _, e2, e3⟩ := num_head (neg := neg) (es := es) (r := r) h
  have hword : ∀ c ∈ s, isWord c = true := fun c hc => isWord_iff.2 (hs.2.1 c hc)
  cases neg with
  | true =>
    rw [e1, e2 rfl] at e
    cases s with
    | nil => exact hs.1 rfl
    | cons d s =>
      cases e
      exact absurd (hword '~' (by simp)) (by decide)
  | false =>
    have e' : (ds ++ '.' :: (es ++ r).takeWhile isWord) ++ (es ++ r).dropWhile isWord = s ++ r' := by
      rw [← e]
      simp
    have hu := run_unique (p := isWord) e' (by
      intro c hc
      rcases List.mem_append.1 hc with hc | hc
      · exact isWord_of_isNum (digits_num h c hc)
      · rcases List.mem_cons.1 hc with rfl | hc
        · decide
        · exact List.all_eq_true.1 List.all_takeWhile c hc) hword (by
      intro c x hc
      have := List.head?_dropWhile_not isWord (es ++ r)
      rw [hc] at this
      simpa using this) (by
      intro c x hc
      have := hr' c x hc
      rw [← isWord_iff] at this
      simpa using this)
    exact hs.2.2 ds _ h hu.1.symm

theorem word_lpar {s r x : List Char} (hs : Word s) (e : s ++ r = '(' :: x) : False := by
  cases s with
  | nil => exact hs.1 rfl
  | cons d s =>
    cases e
    exact absurd (isWord_iff.2 (hs.2.1 '(' (by simp))) (by decide)

theorem binSym_inj {o o' : BinOp} (h : o.sym = o'.sym) : o = o' := by
  cases o <;> cases o' <;> first
    | rfl
    | exact absurd h (by decide)

theorem term_unique {num : Bool → List Char → List Char → ℚ} {s : List Char} {t : Tm} (h : TermText num s t) :
    ∀ (s' : List Char) (t' : Tm) (r r' : List Char), TermText num s' t' → s ++ r = s' ++ r' → Ends t r → Ends t' r' →
      s = s' ∧ t = t' ∧ r = r' := by
  induction h with
  | num neg ds es h hes =>
    intro s' t' r r' h' e hr hr'
    obtain ⟨c, x, e1, e2, e3, e4⟩ := num_head (neg := neg) (es := es) (r := r) h
    cases h' with
    | num neg' ds' es' h' hes' =>
      obtain ⟨c', x', e1', e2', e3', e4'⟩ := num_head (neg := neg') (es := es') (r := r') h'
      have hcc : c = c' := by
        rw [e1, e1'] at e
        exact (List.cons.inj e).1
      have hneg : neg = neg' := by
        cases neg <;> cases neg'
        · rfl
        · have := e4 rfl
          rw [hcc, e3' rfl] at this
          exact absurd this (by decide)
        · have := e4' rfl
          rw [← hcc, e3 rfl] at this
          exact absurd this (by decide)
        · rfl
      subst hneg
      rw [List.append_assoc, List.append_assoc (if neg = true then ['~'] else []) (ds' ++ '.' :: es') r'] at e
      have e_1 := List.append_cancel_left e
      simp only [List.append_assoc, List.cons_append] at e_1
      obtain ⟨rfl, e_2⟩ := run_unique (p := isNum) e_1 (digits_num h) (digits_num h') (by
        intro c x hc; cases hc; decide) (by intro c x hc; cases hc; decide)
      have e_3 := (List.cons.inj e_2).2
      have hn : ∀ es : List Char, es = [] ∨ Digits es → ∀ c ∈ es, isNum c = true := by
        rintro es (rfl | h) c hc
        · simp at hc
        · exact digits_num h c hc
      obtain ⟨rfl, rfl⟩ := run_unique (p := isNum) e_3 (hn _ hes) (hn _ hes') (by
        intro c x hc
        have := hr c x hc
        rw [← isNum_iff] at this
        simpa using this) (by
        intro c x hc
        have := hr' c x hc
        rw [← isNum_iff] at this
        simpa using this)
      exact ⟨rfl, rfl, rfl⟩
    | word _ hs => exact (word_num h hs hr' e).elim
    | bin =>
      rw [e1] at e
      cases e
      exact absurd rfl e2
    | neg =>
      rw [e1] at e
      cases e
      exact absurd rfl e2
  | word s hs =>
    intro s' t' r r' h' e hr hr'
    cases h' with
    | num neg' ds' es' h' hes' => exact (word_num h' hs hr e.symm).elim
    | word _ hs' =>
      obtain ⟨rfl, rfl⟩ := run_unique (p := isWord) e (fun c hc => isWord_iff.2 (hs.2.1 c hc))
        (fun c hc => isWord_iff.2 (hs'.2.1 c hc)) (by
        intro c x hc
        have := hr c x hc
        rw [← isWord_iff] at this
        simpa using this) (by
        intro c x hc
        have := hr' c x hc
        rw [← isWord_iff] at this
        simpa using this)
      exact ⟨rfl, rfl, rfl⟩
    | bin => exact (word_lpar hs e).elim
    | neg => exact (word_lpar hs e).elim
  | bin o w₁ w₂ w₃ w₄ a b ta tb h₁ h₂ h₃ h₄ ha hb hs iha ihb =>
    intro s' t' r r' h' e hr hr'
    cases h' with
    | num neg' ds' es' h' hes' =>
      obtain ⟨c, x, e1, e2, _⟩ := num_head (neg := neg') (es := es') (r := r') h'
      rw [e1] at e
      cases e
      exact absurd rfl e2
    | word _ hs' => exact (word_lpar hs' e.symm).elim
    | bin o' v₁ v₂ v₃ v₄ a' b' ta' tb' k₁ k₂ k₃ k₄ ha' hb' hs' =>
      simp only [List.cons_append, List.append_assoc, List.cons.injEq, true_and, List.nil_append] at e
      obtain ⟨rfl, ho, e_1⟩ := ws_unique h₁ k₁ (by cases o <;> decide) (by cases o' <;> decide) e
      have ho := binSym_inj ho
      subst ho
      obtain ⟨rfl, e_2⟩ := ws_term_unique h₂ k₂ ha ha' e_1
      obtain ⟨rfl, rfl, e_3⟩ := iha _ _ _ _ ha' e_2 (ends_append hb hs _) (ends_append hb' hs' _)
      obtain ⟨rfl, e_4⟩ := ws_term_unique h₃ k₃ hb hb' e_3
      obtain ⟨rfl, rfl, e_5⟩ := ihb _ _ _ _ hb' e_4 (ends_rpar h₄) (ends_rpar k₄)
      obtain ⟨rfl, -, rfl⟩ := ws_unique h₄ k₄ (by decide) (by decide) e_5
      exact ⟨rfl, rfl, rfl⟩
    | neg v₁ v₂ v₄ a' ta' k₁ k₂ k₄ ha' =>
      simp only [List.cons_append, List.append_assoc, List.cons.injEq, true_and, List.nil_append] at e
      obtain ⟨rfl, ho, e_1⟩ := ws_unique h₁ k₁ (by cases o <;> decide) (by decide) e
      obtain ⟨rfl, e_2⟩ := ws_term_unique h₂ k₂ ha ha' e_1
      obtain ⟨rfl, rfl, e_3⟩ := iha _ _ _ _ ha' e_2 (ends_append hb hs _) (ends_rpar k₄)
      exact absurd e_3 (ws_term_rpar h₃ k₄ hb)
  | neg w₁ w₂ w₄ a ta h₁ h₂ h₄ ha iha =>
    intro s' t' r r' h' e hr hr'
    cases h' with
    | num neg' ds' es' h' hes' =>
      obtain ⟨c, x, e1, e2, _⟩ := num_head (neg := neg') (es := es') (r := r') h'
      rw [e1] at e
      cases e
      exact absurd rfl e2
    | word _ hs' => exact (word_lpar hs' e.symm).elim
    | bin o' v₁ v₂ v₃ v₄ a' b' ta' tb' k₁ k₂ k₃ k₄ ha' hb' hs' =>
      simp only [List.cons_append, List.append_assoc, List.cons.injEq, true_and, List.nil_append] at e
      obtain ⟨rfl, ho, e_1⟩ := ws_unique h₁ k₁ (by decide) (by cases o' <;> decide) e
      obtain ⟨rfl, e_2⟩ := ws_term_unique h₂ k₂ ha ha' e_1
      obtain ⟨rfl, rfl, e_3⟩ := iha _ _ _ _ ha' e_2 (ends_rpar h₄) (ends_append hb' hs' _)
      exact absurd e_3.symm (ws_term_rpar k₃ h₄ hb')
    | neg v₁ v₂ v₄ a' ta' k₁ k₂ k₄ ha' =>
      simp only [List.cons_append, List.append_assoc, List.cons.injEq, true_and, List.nil_append] at e
      obtain ⟨rfl, ho, e_1⟩ := ws_unique h₁ k₁ (by decide) (by decide) e
      obtain ⟨rfl, e_2⟩ := ws_term_unique h₂ k₂ ha ha' e_1
      obtain ⟨rfl, rfl, e_3⟩ := iha _ _ _ _ ha' e_2 (ends_rpar h₄) (ends_rpar k₄)
      obtain ⟨rfl, -, rfl⟩ := ws_unique h₄ k₄ (by decide) (by decide) e_3
      exact ⟨rfl, rfl, rfl⟩

theorem relSym_unique {k k' : Op} {r r' : List Char} (h : relSym k ++ r = relSym k' ++ r')
    (hr : ∃ d x, r = d :: x ∧ d ≠ '=') (hr' : ∃ d x, r' = d :: x ∧ d ≠ '=') : k = k' ∧ r = r' := by
  obtain ⟨d, x, rfl, hd⟩ := hr
  obtain ⟨d', x', rfl, hd'⟩ := hr'
  cases k <;> cases k' <;> simp [relSym] at h ⊢ <;> first
    | exact h
    | (exact absurd h.1 hd)
    | (exact absurd h.1.symm hd')

theorem relSym_head (k : Op) (r : List Char) : ∃ c x, relSym k ++ r = c :: x ∧ isWs c = false := by
  cases k <;> exact ⟨_, _, rfl, by decide⟩

theorem rel_unique {num : Bool → List Char → List Char → ℚ} {s s' r r' : List Char} {f f' : Fm} (h : RelText num s f)
    (h' : RelText num s' f') (e : s ++ r = s' ++ r') : s = s' ∧ f = f' ∧ r = r' := by
  obtain ⟨w₁, w₂, w₃, w₄, a, b, k, ta, tb, h₁, h₂, h₃, h₄, ha, hb, hk, hs⟩ := h
  obtain ⟨v₁, v₂, v₃, v₄, a', b', k', ta', tb', k₁, k₂, k₃, k₄, ha', hb', hk', hs'⟩ := h'
  simp only [List.cons_append, List.append_assoc, List.cons.injEq, true_and, List.nil_append] at e
  obtain ⟨c, x, e1, hc⟩ := relSym_head k (w₂ ++ (a ++ (w₃ ++ (b ++ (w₄ ++ ')' :: r)))))
  obtain ⟨c', x', e1', hc'⟩ := relSym_head k' (v₂ ++ (a' ++ (v₃ ++ (b' ++ (v₄ ++ ')' :: r')))))
  have e0 := e
  rw [e1, e1'] at e0
  obtain ⟨rfl, rfl, rfl⟩ := ws_unique h₁ k₁ hc hc' e0
  rw [← e1'] at e1
  obtain ⟨d, x, q1, _, q2⟩ := after_sym h₂ ha hk (w₃ ++ (b ++ (w₄ ++ ')' :: r)))
  obtain ⟨d', x', q1', _, q2'⟩ := after_sym k₂ ha' hk' (v₃ ++ (b' ++ (v₄ ++ ')' :: r')))
  obtain ⟨rfl, e_1⟩ := relSym_unique e1 ⟨d, x, q1, q2⟩ ⟨d', x', q1', q2'⟩
  obtain ⟨rfl, e_2⟩ := ws_term_unique h₂ k₂ ha ha' e_1
  obtain ⟨rfl, rfl, e_3⟩ := term_unique ha _ _ _ _ ha' e_2 (ends_append hb hs _) (ends_append hb' hs' _)
  obtain ⟨rfl, e_4⟩ := ws_term_unique h₃ k₃ hb hb' e_3
  obtain ⟨rfl, rfl, e_5⟩ := term_unique hb _ _ _ _ hb' e_4 (ends_rpar h₄) (ends_rpar k₄)
  obtain ⟨rfl, -, rfl⟩ := ws_unique h₄ k₄ (by decide) (by decide) e_5
  exact ⟨rfl, rfl, rfl⟩

theorem rel_head {num : Bool → List Char → List Char → ℚ} {s : List Char} {f : Fm} (h : RelText num s f) :
    ∃ x, s = '(' :: x := by
  cases h
  exact ⟨_, rfl⟩

theorem rels_unique {num : Bool → List Char → List Char → ℚ} {s : List Char} {l : List Fm} (h : RelsText num s l) :
    ∀ (s' r r' : List Char) (l' : List Fm), RelsText num s' l' → s ++ ')' :: r = s' ++ ')' :: r' →
      l = l' ∧ r = r' := by
  induction h with
  | nil w hw =>
    intro s' r r' l' h' e
    cases h' with
    | nil _ hw' =>
      obtain ⟨_, _, h⟩ := ws_unique hw hw' (by decide) (by decide) e
      exact ⟨rfl, h⟩
    | cons v s rest f l hv hs hr =>
      obtain ⟨x, rfl⟩ := rel_head hs
      simp only [List.cons_append, List.append_assoc] at e
      exact absurd (ws_unique hw hv (by decide) (by decide) e).2.1 (by decide)
  | cons w s rest f l hw hs hr ih =>
    intro s' r r' l' h' e
    obtain ⟨x, hx⟩ := rel_head hs
    cases h' with
    | nil _ hw' =>
      subst hx
      simp only [List.cons_append, List.append_assoc] at e
      exact absurd (ws_unique hw hw' (by decide) (by decide) e).2.1 (by decide)
    | cons v s' rest' f' l' hv hs' hr' =>
      obtain ⟨x', hx'⟩ := rel_head hs'
      have e' : w ++ '(' :: (x ++ (rest ++ ')' :: r)) = v ++ '(' :: (x' ++ (rest' ++ ')' :: r')) := by
        rw [hx, hx'] at e
        simpa using e
      obtain ⟨rfl, -, e''⟩ := ws_unique hw hv (by decide) (by decide) e'
      have e3 : s ++ (rest ++ ')' :: r) = s' ++ (rest' ++ ')' :: r') := by
        rw [hx, hx', List.cons_append, List.cons_append, e'']
      obtain ⟨rfl, rfl, e4⟩ := rel_unique hs hs' e3
      obtain ⟨rfl, rfl⟩ := ih _ _ _ _ hr' e4
      exact ⟨rfl, rfl⟩

theorem sequent_unique {num : Bool → List Char → List Char → ℚ} {s s' r r' : List Char} {q q' : FileSeq}
    (h : SequentText num s q) (h' : SequentText num s' q') (e : s ++ r = s' ++ r') : q = q' ∧ r = r' := by
  obtain ⟨w₁, w₂, w₃, w₄, w₅, w₆, w₇, name, a, b, la, lb, h₁, h₂, h₃, h₄, h₅, h₆, h₇, hn, ha, hb⟩ := h
  obtain ⟨v₁, v₂, v₃, v₄, v₅, v₆, v₇, name', a', b', la', lb', k₁, k₂, k₃, k₄, k₅, k₆, k₇, hn', ha', hb'⟩ := h'
  have s1 : "sequent".toList = 's' :: "equent".toList := rfl
  have s2 : "antecedent".toList = 'a' :: "ntecedent".toList := rfl
  have s3 : "succedent".toList = 's' :: "uccedent".toList := rfl
  rw [s1, s2, s3] at e
  generalize "equent".toList = t1 at e
  generalize "ntecedent".toList = t2 at e
  generalize "uccedent".toList = t3 at e
  simp only [List.cons_append, List.append_assoc, List.cons.injEq, true_and, List.nil_append] at e
  obtain ⟨-, -, e_1⟩ := ws_unique h₁ k₁ (by decide) (by decide) e
  have e_2 := List.append_cancel_left e_1
  obtain ⟨-, -, e_3⟩ := ws_unique h₂ k₂ (by decide) (by decide) e_2
  obtain ⟨rfl, e_4⟩ := append_inj_of_not_mem e_3 hn hn'
  obtain ⟨-, -, e_5⟩ := ws_unique h₃ k₃ (by decide) (by decide) e_4
  obtain ⟨-, -, e_6⟩ := ws_unique h₄ k₄ (by decide) (by decide) e_5
  have e_7 := List.append_cancel_left e_6
  obtain ⟨rfl, e_8⟩ := rels_unique ha _ _ _ _ ha' e_7
  obtain ⟨-, -, e_9⟩ := ws_unique h₅ k₅ (by decide) (by decide) e_8
  obtain ⟨-, -, e_10⟩ := ws_unique h₆ k₆ (by decide) (by decide) e_9
  have e_11 := List.append_cancel_left e_10
  obtain ⟨rfl, e_12⟩ := rels_unique hb _ _ _ _ hb' e_11
  obtain ⟨-, -, e_13⟩ := ws_unique h₇ k₇ (by decide) (by decide) e_12
  exact ⟨rfl, e_13⟩

/-- **C74** (uniqueness): a text of a file has one reading: the same names of sequents, the same formulas, in the same
order. -/
theorem C74_unique (num : Bool → List Char → List Char → ℚ) (text : List Char) (l l' : List FileSeq)
    (h : FileText num text l) (h' : FileText num text l') : l = l' := by
  induction h generalizing l' with
  | nil w hw =>
    cases h' with
    | nil => rfl
    | cons v s rest q l hv hs hr =>
      obtain ⟨x, rfl⟩ := seqText_head hs
      exact absurd (hw '(' (by simp)) (by decide)
  | cons w s rest q l hw hs hr ih =>
    obtain ⟨x, hx⟩ := seqText_head hs
    generalize ht : w ++ (s ++ rest) = text at h'
    cases h' with
    | nil _ hw' =>
      exact absurd (hw' '(' (by rw [← ht, hx]; simp)) (by decide)
    | cons v s' rest' q' l' hv hs' hr' =>
      obtain ⟨x', hx'⟩ := seqText_head hs'
      have e' : w ++ '(' :: (x ++ rest) = v ++ '(' :: (x' ++ rest') := by
        rw [hx, hx'] at ht
        simpa using ht
      obtain ⟨rfl, -, e''⟩ := ws_unique hw hv (by decide) (by decide) e'
      have e3 : s ++ rest = s' ++ rest' := by rw [hx, hx', List.cons_append, List.cons_append, e'']
      obtain ⟨rfl, rfl⟩ := sequent_unique hs hs' e3
      rw [ih _ hr']

/-- The hypotheses are met by the file with two sequents. -/
example : FileText testNum twoText [fileSeq ['s', '1'], fileSeq ['s', '2']] := twoText_ok

end Verif.Grf
