import Verif.Grf.PropsSmtText

/-!
# C74-C77: soundness for the text of input files; several sequents; the result text; contexts
-/

set_option linter.unusedSectionVars false

namespace Verif.Grf

open Verif.Vts (isWs skipWs isNum isAlpha digits1 Ws Digits skipWs_ws skipWs_cons skipWs_wc isNum_iff isWs_iff)

section
variable {K : Type} [Field K] [LinearOrder K] [IsStrictOrderedRing K]

/-! ### C74: soundness -/

theorem Promotes.ids {S : Sage K} {orig : List Atom} {st st' : State} {is : List ℕ} (h : Promotes S st is st')
    (ho : IdsOK orig st) : IdsOK orig st' ∧ st'.ids.Sublist st.ids := by
  induction h with
  | refl st => exact ⟨ho, List.Sublist.refl _⟩
  | step st st₁ st' i is hi hs ih =>
    obtain ⟨h1, h2⟩ := ids_promote ho hi
    obtain ⟨h3, h4⟩ := ih h1
    exact ⟨h3, h4.trans h2⟩

/-- Hiding is sound in both modes, whatever is typed in. -/
theorem iCheck_hiding {C : Core K} (hS : SageOK C.toSage) (hC : CoreSound C) {int : List Char → Option ℤ}
    {A B : List Atom} {s : State} {b : Bool} {lines rest : List (List Char)} {fuel : ℕ} {ret : List (List ℕ)}
    {st' : State} (hs : seqState A B = .ok s) (h : iCheck C int fuel 0 b s lines = .ok (ret, st', rest)) :
    ∀ ρ : ℕ → K, (∀ a, Kept A (hideAnte s.hyps.length st'.ids) a → a.holds ρ) →
      ∃ x, Kept B (hideSucc A.length B.length st'.ids) x ∧ x.holds ρ := by
  unfold seqState at hs
  split at hs
  · cases hs
  · next g others hr =>
    cases hs
    obtain ⟨is, m, h1, ⟨ds, h2, h3⟩, _⟩ := iCheck_spec C int fuel 0 b _ lines ret st' rest h
    obtain ⟨ps, _, e1, e2, e3⟩ := h1.inv hS
    obtain ⟨hids, hsub⟩ := h1.ids (idsOK_init (A ++ others.map Atom.negate) _)
    refine hiding_of_promoted hr hids hsub e1 ?_
    intro ρ hp
    have := hC m st' ds h2 h3 ρ (e3 ρ (by simp) (by simp) hp)
    rwa [e2] at this

/-- What one sequent does to the context. -/
theorem seqRun_ok {E : SmtEnv K} (hq : QuotOK K E.quot) (hS : ∀ n, SageOK (E.core n).toSage)
    (hC : ∀ n, CoreSound (E.core n)) {o : Obj} {lines : List (List Char)} {runs : ℕ} {q : FileSeq}
    {x : Obj × List (List Char) × ℕ} (hc : CtxOK o.ctx) (h : seqRun E o lines runs q = .ok x) :
    CtxOK x.1.ctx ∧ x.1.name = q.name ∧ ∃ as ss, x.1.result = some (as, ss) ∧
      ∀ σ : String → K, (∀ f ∈ q.ante ++ q.succ, f.defined σ) →
        (∀ i f, i ∉ as → q.ante[i]? = some f → f.holds σ) → ∃ i f, i ∉ ss ∧ q.succ[i]? = some f ∧ f.holds σ := by
  unfold seqRun at h
  split at h
  · cases h
  · next A hA =>
    split at h
    · cases h
    · next B hB =>
      split at h
      · cases h
      · next s hs =>
        split at h
        · cases h
        · next r hr =>
          cases h
          obtain ⟨a1, _⟩ := readFms_ok (K := K) hq q.ante o.ctx A.2 A.1 hc hA
          obtain ⟨b1, _⟩ := readFms_ok (K := K) hq q.succ A.2 B.2 B.1 a1 hB
          obtain ⟨ret, st', rest⟩ := r
          exact ⟨b1, rfl, _, _, rfl, text_of_atoms hq hc hA hB (iCheck_hiding (hS runs) (hC runs) hs hr)⟩

theorem seqsRun_append {E : SmtEnv K} {l : List FileSeq} {q : FileSeq} : ∀ {x y : Obj × List (List Char) × ℕ},
    seqsRun E x (l ++ [q]) = .ok y → ∃ z, seqsRun E x l = .ok z ∧ seqRun E z.1 z.2.1 z.2.2 q = .ok y := by
  induction l with
  | nil =>
    intro x y h
    refine ⟨x, rfl, ?_⟩
    simp only [List.nil_append, seqsRun] at h
    split at h
    · cases h
    · next h' => cases h; exact h'
  | cons p l ih =>
    intro x y h
    simp only [List.cons_append, seqsRun] at h ⊢
    split at h
    · cases h
    · exact ih h

theorem seqsRun_ctx {E : SmtEnv K} (hq : QuotOK K E.quot) (hS : ∀ n, SageOK (E.core n).toSage)
    (hC : ∀ n, CoreSound (E.core n)) {l : List FileSeq} : ∀ {x y : Obj × List (List Char) × ℕ}, CtxOK x.1.ctx →
    seqsRun E x l = .ok y → CtxOK y.1.ctx := by
  induction l with
  | nil => intro x y hx h; cases h; exact hx
  | cons p l ih =>
    intro x y hx h
    simp only [seqsRun] at h
    split at h
    · cases h
    · next h' => exact ih (seqRun_ok hq hS hC hx h').1 h

/-- **C74** (soundness): if `grf_on_file` returns, in either mode and whatever is typed in, then the result names the last
sequent of the file, and at every assignment of values to the names in the text at which no divisor is zero, some formula of
its succedent that is not reported follows from the formulas of its antecedent that are not reported. -/
theorem C74_sound (E : SmtEnv K) (hq : QuotOK K E.quot) (hS : ∀ n, SageOK (E.core n).toSage)
    (hC : ∀ n, CoreSound (E.core n)) (interactive out : Bool) (lines : List (List Char)) (text : List Char) (o : SmtOut)
    (h : grfOnFile E interactive out lines text = .ok o) :
    (∃ l q, FileText E.num text (l ++ [q])) ∧
    ∀ l q, FileText E.num text (l ++ [q]) → ∃ as ss : List ℕ,
      o.ret = (as.length, ss.length) ∧ o.file = (if out then some (resultText q.name as ss) else none) ∧
      ∀ σ : String → K, (∀ f ∈ q.ante ++ q.succ, f.defined σ) →
        (∀ i f, i ∉ as → q.ante[i]? = some f → f.holds σ) → ∃ i f, i ∉ ss ∧ q.succ[i]? = some f ∧ f.holds σ := by
  constructor
  · obtain ⟨l, hl, ht⟩ := C74_exact E interactive out lines text o h
    exact ⟨l.dropLast, l.getLast hl, by rw [List.dropLast_append_getLast]; exact ht⟩
  · intro l q ht
    rw [C74_reading E interactive out lines text _ ht] at h
    split at h
    · cases h
    · next x hx =>
      obtain ⟨z, hz, hz'⟩ := seqsRun_append hx
      have hctx := seqsRun_ctx hq hS hC (x := (Obj.new interactive, lines, 0)) init_ok hz
      obtain ⟨_, h2, as, ss, h3, h4⟩ := seqRun_ok hq hS hC hctx hz'
      rw [h3] at h
      cases h
      exact ⟨as, ss, rfl, by rw [h2], h4⟩

/-! ### C74: the bound of the model on the depth is not reached -/

/-- The bound is not reached. -/
def Fine {σ α : Type} (p : SP σ α) (i : List Char) : Prop := ∀ st, p st i ≠ .error .recursion

theorem fine_bind {σ α β : Type} {p : SP σ α} {f : α → SP σ β} {i : List Char} (h : Fine p i)
    (h' : ∀ st st' a r, p st i = .ok (st', some (a, r)) → Fine (f a) r) : Fine (p >>= f) i := by
  intro st
  cases hp : p st i with
  | error e =>
    rw [sbind_error hp]
    intro he
    cases he
    exact h st hp
  | ok x =>
    obtain ⟨st', o⟩ := x
    cases o with
    | none => rw [sbind_none hp]; simp
    | some y =>
      obtain ⟨a, r⟩ := y
      rw [sbind_some hp]
      exact h' st st' a r hp st'

theorem fine_alt {σ α : Type} {p q : SP σ α} {i : List Char} (h : Fine p i) (h' : Fine q i) : Fine (p.alt q) i := by
  intro st
  cases hp : p st i with
  | error e =>
    rw [salt_error hp]
    intro he
    exact h st (hp.trans he)
  | ok x =>
    obtain ⟨st', o⟩ := x
    cases o with
    | none => rw [salt_none hp]; exact h' st'
    | some y => rw [salt_some hp]; simp

theorem fine_tok {σ α : Type} (f : List Char → Option (α × List Char)) (i : List Char) : Fine (σ := σ) (stok f) i := by
  intro st h
  cases h

theorem fine_pure {σ α : Type} (a : α) (i : List Char) : Fine (σ := σ) (pure a) i := by
  intro st h
  cases h

theorem fine_lit {σ : Type} (s : List Char) (i : List Char) : Fine (σ := σ) (slit s) i := fine_tok _ _

theorem lit_length {σ : Type} {c : Char} {s : List Char} {st st' : σ} {i r : List Char} {u : Unit}
    (h : slit (c :: s) st i = .ok (st', some (u, r))) : r.length < i.length := by
  obtain ⟨_, w, _, e⟩ := slit_inv h
  rw [e]
  simp only [List.length_append, List.length_cons]
  omega

theorem isTerm_length {num : Bool → List Char → List Char → ℚ} {i r : List Char} (h : IsTerm num i r) :
    r.length ≤ i.length := by
  obtain ⟨w, s, t, _, rfl, _⟩ := h
  simp only [List.length_append]
  omega

theorem fine_action {σ α : Type} {f : σ → Except SErr (α × σ)} (h : ∀ st, f st ≠ .error .recursion) (i : List Char) :
    Fine (saction f) i := by
  intro st he
  unfold saction at he
  split at he
  · next e h' =>
    cases he
    exact h st h'
  · cases he

theorem fine_sfn2 (E : SmtEnv K) {op : Char} {f : MPoly → MPoly → Option MPoly} {n : ℕ}
    (ih : ∀ i : List Char, i.length < n → Fine (sterm E n) i) {i : List Char} (hi : i.length < n + 1) :
    Fine (sfn2 op f (sterm E n)) i := by
  unfold sfn2
  apply fine_bind (fine_lit _ _)
  intro _ _ _ r0 h0
  have l0 := lit_length h0
  apply fine_bind (fine_lit _ _)
  intro _ _ _ r1 h1
  have l1 := lit_length h1
  apply fine_bind (ih _ (by omega))
  intro _ _ _ r2 h2
  have l2 := isTerm_length (sterm_inv E _ _ _ _ _ _ h2)
  apply fine_bind (ih _ (by omega))
  intro _ _ _ r3 h3
  apply fine_bind (fine_lit _ _)
  intro _ _ _ r4 h4
  apply fine_action
  intro st
  split <;> simp

theorem fine_sterm (E : SmtEnv K) : ∀ (n : ℕ) (i : List Char), i.length < n → Fine (sterm E n) i := by
  intro n
  induction n with
  | zero => intro i h; omega
  | succ n ih =>
    intro i hi
    unfold sterm
    apply fine_alt
    · unfold numP
      exact fine_bind (fine_tok _ _) fun _ _ _ _ _ => fine_pure _ _
    apply fine_alt
    · unfold wordP
      exact fine_bind (fine_tok _ _) fun _ _ _ _ _ => fine_action (fun _ => by simp) _
    apply fine_alt (fine_sfn2 E ih hi)
    apply fine_alt (fine_sfn2 E ih hi)
    apply fine_alt (fine_sfn2 E ih hi)
    apply fine_alt (fine_sfn2 E ih hi)
    unfold sfnNeg
    apply fine_bind (fine_lit _ _)
    intro _ _ _ r0 h0
    have l0 := lit_length h0
    apply fine_bind (fine_lit _ _)
    intro _ _ _ r1 h1
    have l1 := lit_length h1
    apply fine_bind (ih _ (by omega))
    intro _ _ _ r2 h2
    apply fine_bind (fine_lit _ _)
    intro _ _ _ r4 h4
    exact fine_pure _ _

theorem fine_sfml (E : SmtEnv K) {n : ℕ} {i : List Char} (hi : i.length < n) : Fine (sfml E n) i := by
  have h : ∀ (s : List Char) (op : String), Fine (srln E s op n) i := by
    intro s op
    unfold srln
    apply fine_bind (fine_lit _ _)
    intro _ _ _ r0 h0
    have l0 := lit_length h0
    apply fine_bind (fine_tok _ _)
    intro _ _ _ r1 h1
    have l1 : r1.length ≤ r0.length := by
      obtain ⟨_, w, _, e, _⟩ := skw_inv h1
      rw [e]
      simp only [List.length_append]
      omega
    apply fine_bind (fine_sterm E n _ (by omega))
    intro _ _ _ r2 h2
    have l2 := isTerm_length (sterm_inv E _ _ _ _ _ _ h2)
    apply fine_bind (fine_sterm E n _ (by omega))
    intro _ _ _ r3 h3
    apply fine_bind (fine_lit _ _)
    intro _ _ _ r4 h4
    apply fine_action
    intro st
    split <;> simp
  unfold sfml
  exact fine_alt (h _ _) (fine_alt (h _ _) (fine_alt (h _ _) (fine_alt (h _ _) (fine_alt (h _ _) (h _ _)))))

theorem fine_smany (E : SmtEnv K) (o : ℕ) {n : ℕ} : ∀ (m : ℕ) (i : List Char), i.length < n → i.length < m →
    Fine (smany (zoom o (sfml E n)) m) i ∧ ∀ st st' l r, smany (zoom o (sfml E n)) m st i = .ok (st', some (l, r)) →
      r.length ≤ i.length := by
  intro m
  induction m with
  | zero => intro i _ h; omega
  | succ m ih =>
    intro i hn hm
    have key : ∀ st st' a r, zoom o (sfml E n) st i = .ok (st', some (a, r)) → r.length < i.length := by
      intro st st' a r h
      obtain ⟨c, h0⟩ := zoom_inv h
      obtain ⟨w, s, f, _, e, hf⟩ := sfml_inv E h0
      have : 0 < s.length := by cases hf; simp
      rw [e]
      simp only [List.length_append]
      omega
    constructor
    · intro st he
      unfold smany at he
      split at he
      · next e hz =>
        cases he
        unfold zoom at hz
        split at hz
        · next e' hz' =>
          cases hz
          exact fine_sfml E hn _ hz'
        · cases hz
      · cases he
      · next st' a r hz =>
        have hl := key _ _ _ _ hz
        exact fine_bind (ih r (by omega) (by omega)).1 (fun _ _ _ _ _ => fine_pure _ _) st' he
    · intro st st' l r h
      unfold smany at h
      split at h
      · cases h
      · cases h; exact le_rfl
      · next st1 a r1 hz =>
        have hl := key _ _ _ _ hz
        obtain ⟨_, l1, r2, h1, h2⟩ := sbind_ok h
        cases h2
        have := (ih r1 (by omega) (by omega)).2 _ _ _ _ h1
        omega

theorem fine_sside (E : SmtEnv K) (o : ℕ) {n : ℕ} {c : Char} {kwd : List Char} {i : List Char} (hi : i.length < n) :
    Fine (sside E o (c :: kwd) n) i := by
  unfold sside
  apply fine_bind (fine_lit _ _)
  intro _ _ _ r0 h0
  have l0 := lit_length h0
  apply fine_bind (fine_lit _ _)
  intro _ _ _ r1 h1
  have l1 := lit_length h1
  apply fine_bind (fine_smany E o n r1 (by omega) (by omega)).1
  intro _ _ _ r2 h2
  apply fine_bind (fine_lit _ _)
  intro _ _ _ r4 h4
  exact fine_pure _ _

theorem sside_length (E : SmtEnv K) (o n : ℕ) {kwd : List Char} {st st' : SmtState} {i r : List Char} {l : List Atom}
    (h : sside E o kwd n st i = .ok (st', some (l, r))) : r.length < i.length := by
  obtain ⟨w, w₁, s, l, _, _, _, e⟩ := sside_inv E o n h
  rw [e]
  simp only [List.length_append, List.length_cons]
  omega

theorem fine_scmd (E : SmtEnv K) (o own : ℕ) {n : ℕ} {i : List Char} (hi : i.length < n) : Fine (scmd E o own n) i := by
  unfold scmd
  apply fine_bind (fine_lit _ _)
  intro _ _ _ r0 h0
  have l0 := lit_length h0
  apply fine_bind (fine_lit _ _)
  intro _ _ _ r1 h1
  have l1 : r1.length < r0.length := lit_length (c := 's') (s := "equent".toList) h1
  apply fine_bind (fine_tok _ _)
  intro _ _ _ r2 h2
  have l2 : r2.length < r1.length := by
    obtain ⟨w, _, _, e⟩ := squoted_inv h2
    rw [e]
    simp only [List.length_append, List.length_cons]
    omega
  apply fine_bind (fine_sside E o (c := 'a') (kwd := "ntecedent".toList) (by omega))
  intro _ _ _ r3 h3
  have l3 := sside_length E o n h3
  apply fine_bind (fine_action (fun _ => by simp) _)
  intro _ _ _ r4 h4
  have l4 : r4 = r3 := (saction_inv h4).1
  subst l4
  apply fine_bind (fine_sside E o (c := 's') (kwd := "uccedent".toList) (by omega))
  intro _ _ _ r5 h5
  apply fine_bind (fine_action (fun _ => by simp) _)
  intro _ _ _ r6 h6
  apply fine_bind (fine_lit _ _)
  intro _ _ _ r7 h7
  apply fine_action
  intro st h
  unfold performObj at h
  split at h
  · cases h
  · split at h <;> cases h

theorem fine_scmds (E : SmtEnv K) (o own n : ℕ) : ∀ (k : ℕ) (i : List Char) (st : SmtState), i.length < n → i.length < k →
    scmds E o own n k st i ≠ .error .recursion := by
  intro k
  induction k with
  | zero => intro i _ _ h; omega
  | succ k ih =>
    intro i st hn hk h
    unfold scmds at h
    split at h
    · next e he =>
      split at h
      · cases h
      · cases h
        exact fine_scmd E o own hn st he
    · cases h
    · next st' u r he =>
      obtain ⟨w, s, q, _, e, hq⟩ := scmd_inv E o own n he
      have : 0 < s.length := by
        obtain ⟨x, hx⟩ := seqText_head hq
        rw [hx]; simp
      rw [e] at hn hk
      simp only [List.length_append] at hn hk
      exact ih r st' (by omega) (by omega) h

/-- **C74** (the bound of the model): the depth of the recursion is at most the length of the text, for every text; the
error that stands for the recursion limit in the model never occurs. -/
theorem C74_bound (E : SmtEnv K) (interactive out : Bool) (lines : List (List Char)) (text : List Char) :
    grfOnFile E interactive out lines text ≠ .error .recursion := by
  intro h
  unfold grfOnFile SmtReader.process at h
  simp only at h
  split at h
  · next e hp =>
    split at hp
    · next hp' =>
      cases hp
      cases h
      unfold parseCmds at hp'
      split at hp'
      · next hs =>
        cases hp'
        exact fine_scmds E _ _ _ _ _ _ (by omega) (by omega) hs
      · split at hp' <;> cases hp'
    · cases hp
  · split at h <;> cases h

/-! ### C75 -/

/-- What holds instead of **C75**: if the file contains one sequent, its result is reported; of several sequents only the
last one is reported, and the others must be processed without an exception. The missing case is that of the results of
the other sequents. -/
theorem C75_partial (E : SmtEnv K) (interactive out : Bool) (lines : List (List Char)) (text : List Char) (o : SmtOut)
    (h : grfOnFile E interactive out lines text = .ok o) (l : List FileSeq) (q : FileSeq)
    (ht : FileText E.num text (l ++ [q])) :
    ∃ x y as ss, seqsRun E (Obj.new interactive, lines, 0) l = .ok x ∧ seqRun E x.1 x.2.1 x.2.2 q = .ok y ∧
      y.1.result = some (as, ss) ∧ o.ret = (as.length, ss.length) ∧
      o.file = (if out then some (resultText q.name as ss) else none) := by
  rw [C74_reading E interactive out lines text _ ht] at h
  split at h
  · cases h
  · next y hy =>
    obtain ⟨x, hx, hx'⟩ := seqsRun_append hy
    have hname : y.1.name = q.name := by
      unfold seqRun at hx'
      split at hx'
      · cases hx'
      split at hx'
      · cases hx'
      split at hx'
      · cases hx'
      split at hx'
      · cases hx'
      · cases hx'; rfl
    split at h
    · cases h
    · next as ss hr =>
      cases h
      exact ⟨x, y, as, ss, hx, hx', hr, rfl, by rw [hname]⟩

/-! ### C76 -/

/-- **C76** (errors): if the text is not a sequence of sequents, or if there is none, an exception is raised; nothing is
written. -/
theorem C76_raises (E : SmtEnv K) (interactive out : Bool) (lines : List (List Char)) (text : List Char) :
    ((∀ l, l ≠ [] → ¬ FileText E.num text l) → ∃ e, grfOnFile E interactive out lines text = .error e) ∧
    (Ws text → grfOnFile E interactive out lines text = .error .noResult) := by
  constructor
  · intro h
    cases hg : grfOnFile E interactive out lines text with
    | error e => exact ⟨e, rfl⟩
    | ok o =>
      obtain ⟨l, hl, ht⟩ := C74_exact E interactive out lines text o hg
      exact absurd ht (h l hl)
  · intro hw
    rw [C74_reading E interactive out lines text [] (FileText.nil text hw)]
    rfl

end

theorem append_inj_of_not_mem {c : Char} {a a' x x' : List Char} (h : a ++ c :: x = a' ++ c :: x') (ha : c ∉ a)
    (ha' : c ∉ a') : a = a' ∧ x = x' := by
  induction a generalizing a' with
  | nil =>
    cases a' with
    | nil => cases h; exact ⟨rfl, rfl⟩
    | cons d a' =>
      simp only [List.nil_append, List.cons_append, List.cons.injEq] at h
      exact absurd (by simp [h.1]) ha'
  | cons d a ih =>
    cases a' with
    | nil =>
      simp only [List.nil_append, List.cons_append, List.cons.injEq] at h
      exact absurd (by simp [h.1]) ha
    | cons d' a' =>
      simp only [List.cons_append, List.cons.injEq] at h
      obtain ⟨rfl, h⟩ := h
      obtain ⟨h1, h2⟩ := ih h (fun h => ha (by simp [h])) fun h => ha' (by simp [h])
      exact ⟨by rw [h1], h2⟩

theorem toDigits_not_mem {c : Char} (hc : c.isDigit = false) (n : ℕ) : c ∉ Nat.toDigits 10 n := by
  intro h
  rw [Nat.isDigit_of_mem_toDigits (by decide) (by decide) h] at hc
  cases hc

theorem toDigits_inj {m n : ℕ} (h : Nat.toDigits 10 m = Nat.toDigits 10 n) : m = n := by
  rw [← Nat.ofDigitChars_toDigits (b := 10) (n := m) (by decide) (by decide), h,
    Nat.ofDigitChars_toDigits (by decide) (by decide)]

theorem joinNums_not_mem {c : Char} {pre : List Char} (hp : c ∉ pre) (hc : c.isDigit = false) (hs : c ≠ ' ') :
    ∀ l, c ∉ joinNums pre l := by
  intro l
  induction l with
  | nil => simp [joinNums]
  | cons i l ih =>
    have hd := toDigits_not_mem hc i
    cases l with
    | nil => simp [joinNums, hp, hd]
    | cons j l => simp [joinNums, hp, hd, hs, ih]

theorem joinNums_inj {pre : List Char} (hp : ' ' ∉ pre) (hne : pre ≠ []) : ∀ l l', joinNums pre l = joinNums pre l' → l = l' := by
  have hone : ∀ i, ' ' ∉ pre ++ Nat.toDigits 10 i := by
    intro i h
    rcases List.mem_append.1 h with h | h
    · exact hp h
    · exact toDigits_not_mem (by decide) i h
  have hnil : ∀ i (x : List Char), pre ++ Nat.toDigits 10 i ++ x ≠ [] := by
    intro i x h
    simp [hne] at h
  intro l
  induction l with
  | nil =>
    intro l' h
    cases l' with
    | nil => rfl
    | cons i l' =>
      cases l' with
      | nil => exact absurd h.symm (by simp [joinNums, hne])
      | cons j l' => exact absurd h.symm (hnil i _)
  | cons i l ih =>
    intro l' h
    cases l' with
    | nil =>
      cases l with
      | nil => exact absurd h (by simp [joinNums, hne])
      | cons j l => exact absurd h (hnil i _)
    | cons i' l' =>
      cases l with
      | nil =>
        cases l' with
        | nil =>
          simp only [joinNums] at h
          rw [toDigits_inj (List.append_cancel_left h)]
        | cons j' l' =>
          simp only [joinNums] at h
          exact absurd (h ▸ List.mem_append_right _ (by simp)) (hone i)
      | cons j l =>
        cases l' with
        | nil =>
          simp only [joinNums] at h
          exact absurd (h ▸ List.mem_append_right _ (by simp)) (hone i')
        | cons j' l' =>
          simp only [joinNums] at h
          obtain ⟨h1, h2⟩ := append_inj_of_not_mem h (hone i) (hone i')
          rw [toDigits_inj (List.append_cancel_left h1), ih _ h2]

/-- **C76** (result text): the text of the result determines the name and the two lists of numbers. (Names that are read
contain no `"`.) -/
theorem C76_text (n n' : List Char) (a a' s s' : List ℕ) (hn : '"' ∉ n) (hn' : '"' ∉ n')
    (h : resultText n a s = resultText n' a' s') : n = n' ∧ a = a' ∧ s = s' := by
  have e : ∀ (n : List Char) (a s : List ℕ), resultText n a s = '(' :: '"' :: (n ++ '"' :: ' ' :: '(' ::
      (joinNums "hide_antecedent_".toList a ++ ')' :: ' ' :: '(' ::
        (joinNums "hide_succedent_".toList s ++ ')' :: [')']))) := by
    intro n a s
    unfold resultText
    simp only [List.append_assoc]
    rfl
  rw [e, e] at h
  simp only [List.cons.injEq, true_and] at h
  obtain ⟨h1, h⟩ := append_inj_of_not_mem h hn hn'
  simp only [List.cons.injEq, true_and] at h
  obtain ⟨h2, h⟩ := append_inj_of_not_mem h (joinNums_not_mem (by decide) (by decide) (by decide) _)
    (joinNums_not_mem (by decide) (by decide) (by decide) _)
  simp only [List.cons.injEq, true_and] at h
  obtain ⟨h3, _⟩ := append_inj_of_not_mem h (joinNums_not_mem (by decide) (by decide) (by decide) _)
    (joinNums_not_mem (by decide) (by decide) (by decide) _)
  exact ⟨h1, joinNums_inj (by decide) (by decide) _ _ h2, joinNums_inj (by decide) (by decide) _ _ h3⟩

section
variable {K : Type} [Field K] [LinearOrder K] [IsStrictOrderedRing K]

/-! ### C77 -/

/-- **C77**, violated for every text and every context: whatever context is given to a new `ParseSMT` object, processing a
text that contains a sequent in it raises an exception. -/
theorem C77_given_violated (E : SmtEnv K) (interactive : Bool) (lines : List (List Char)) (o : ℕ)
    (ho : o ≠ (SmtReader.new interactive lines).1.own) (obj : Obj) (text : List Char) (l : List FileSeq) (hl : l ≠ [])
    (h : FileText E.num text l) (x : ℕ × SmtState) :
    (SmtReader.new interactive lines).1.process E
      { (SmtReader.new interactive lines).2 with heap := Function.update (SmtReader.new interactive lines).2.heap o obj }
      text (some o) ≠ .ok x := by
  intro hx
  cases h with
  | nil => exact absurd rfl hl
  | cons w s rest q l hw hs hr =>
    unfold SmtReader.process at hx
    simp only at hx
    split at hx
    · cases hx
    · next st' hp =>
      unfold parseCmds at hp
      obtain ⟨y, hy⟩ := seqText_head hs
      have hsk : skipWs (w ++ (s ++ rest)) ≠ [] := by
        rw [hy, List.cons_append, skipWs_wc hw (by decide)]
        simp
      have hcmd : ∃ e, scmd E o (SmtReader.new interactive lines).1.own ((w ++ (s ++ rest)).length + 1)
          { (SmtReader.new interactive lines).2 with
            heap := Function.update (SmtReader.new interactive lines).2.heap o obj } (w ++ (s ++ rest)) = .error e := by
        rw [scmd_gen E o _ hs _ (by simp only [List.length_append]; omega) _ w rest hw]
        split
        · exact ⟨_, rfl⟩
        · split
          · exact ⟨_, rfl⟩
          · unfold saction performObj
            simp only [Function.update_of_ne (Ne.symm ho)]
            exact ⟨_, rfl⟩
      obtain ⟨e, he⟩ := hcmd
      split at hp
      · cases hp
      · next st'' r hsc =>
        unfold scmds at hsc
        rw [he] at hsc
        simp only at hsc
        split at hsc
        · cases hsc
          rw [if_neg hsk] at hp
          cases hp
        · cases hsc

theorem scmds_result (E : SmtEnv K) {o own : ℕ} (ho : o ≠ own) {text : List Char} {l : List FileSeq}
    (h : FileText E.num text l) : ∀ (n k : ℕ), text.length ≤ n → ∀ (st st' : SmtState) (r : List Char),
      scmds E o own n k st text = .ok (st', r) →
      (st'.heap o).result = (st.heap o).result ∧ (st'.heap o).name = (st.heap o).name := by
  induction h with
  | nil w hw =>
    intro n k _ st st' r h
    cases k with
    | zero => cases h
    | succ k =>
      unfold scmds at h
      rw [scmd_none E o own n st hw] at h
      cases h
      exact ⟨rfl, rfl⟩
  | cons w s rest q l hw hs hr ih =>
    intro n k hn st st' r h
    simp only [List.length_append] at hn
    cases k with
    | zero => cases h
    | succ k =>
      unfold scmds at h
      rw [scmd_gen E o own hs n (by omega) st w rest hw] at h
      split at h
      · split at h
        · cases h; exact ⟨rfl, rfl⟩
        · cases h
      · next hc =>
        cases h
        split at hc
        · cases hc
        split at hc
        · cases hc
        unfold saction at hc
        split at hc <;> cases hc
      · next st1 u r' hc =>
        have h1 := ih n k (by omega) st1 st' r (by
          split at hc
          · cases hc
          split at hc
          · cases hc
          obtain ⟨e, _⟩ := saction_inv hc
          simp only at e
          rw [← e]
          exact h)
        rw [h1.1, h1.2]
        split at hc
        · cases hc
        split at hc
        · cases hc
        obtain ⟨_, e⟩ := saction_inv hc
        unfold performObj at e
        split at e
        · cases e
        split at e
        · cases e
        · cases e
          simp only [Function.update_of_ne ho, Function.update_self, and_self]

/-- **C77**, violated for every text: after `clearContext`, the context that is returned has no result and no
name of a sequent. -/
theorem C77_cleared_violated (E : SmtEnv K) (R : SmtReader) (hR : R.fresh ≠ R.own) (st : SmtState) (text : List Char) (x : ℕ × SmtState)
    (h : (R.clear st).1.process E (R.clear st).2 text none = .ok x) :
    (x.2.heap x.1).result = none ∧ (x.2.heap x.1).name = [] := by
  unfold SmtReader.process SmtReader.clear at h
  simp only at h
  split at h
  · cases h
  · next st' hp =>
    cases h
    unfold parseCmds at hp
    split at hp
    · cases hp
    · next st'' r hs =>
      split at hp
      · next hr =>
        cases hp
        obtain ⟨l, hl⟩ := scmds_inv E _ _ _ _ _ _ _ _ hs hr
        obtain ⟨h1, h2⟩ := scmds_result E hR hl _ _ (by omega) _ _ _ hs
        rw [h1, h2]
        simp [Obj.new]
      · cases hp

/-- What `clearContext` does: the new context is none of the contexts in use, it is empty and asks the user, the
other contexts keep their contents, and the action of `cmd` stays with the old context. This can be repeated: the numbers
below `fresh` are the ones in use. -/
theorem C77_cleared (R : SmtReader) (st : SmtState) (hc : R.cur < R.fresh) (ho : R.own < R.fresh) :
    (R.clear st).1.cur ≠ R.cur ∧ (R.clear st).1.own = R.own ∧
    (∀ o, o < R.fresh → (R.clear st).1.cur ≠ o ∧ (R.clear st).2.heap o = st.heap o) ∧
    (R.clear st).2.heap (R.clear st).1.cur = ⟨⟨1, []⟩, [], [], [], none, true⟩ ∧
    (R.clear st).2.lines = st.lines ∧ (R.clear st).2.runs = st.runs ∧
    (R.clear st).1.cur < (R.clear st).1.fresh ∧ R.fresh ≤ (R.clear st).1.fresh ∧
    (R.clear st).1.own < (R.clear st).1.fresh := by
  unfold SmtReader.clear
  refine ⟨hc.ne', rfl, fun o h => ⟨h.ne', Function.update_of_ne h.ne _ _⟩, ?_, rfl, rfl, Nat.lt_succ_self _,
    Nat.le_succ _, Nat.lt_succ_of_lt ho⟩
  show Function.update st.heap R.fresh (Obj.new true) R.fresh = _
  rw [Function.update_self]; rfl

-- a new object has such numbers
example : (SmtReader.new false []).1.cur < (SmtReader.new false []).1.fresh ∧
    (SmtReader.new false []).1.own < (SmtReader.new false []).1.fresh := by decide

/-- What holds of **C77** in all contexts: if no exception is raised, the given context is returned, or else the current
one. -/
theorem C77_returns (E : SmtEnv K) (R : SmtReader) (st : SmtState) (text : List Char) (context : Option ℕ) (x : ℕ × SmtState)
    (h : R.process E st text context = .ok x) : x.1 = context.getD R.cur := by
  unfold SmtReader.process at h
  split at h <;> split at h <;> cases h <;> rfl

-- a blank text can be processed in any context
example (E : SmtEnv K) (R : SmtReader) (st : SmtState) : R.process E st " ".toList (some 7) = .ok (7, st) := rfl

/-- What holds instead of **C77**: in the context that belongs to the object, given explicitly or not, texts of sequents are
processed one after the other, and the context then has the result of the last sequent. -/
theorem C77_partial (E : SmtEnv K) (R : SmtReader) (hR : R.cur = R.own) (st : SmtState) (text : List Char)
    (l : List FileSeq) (h : FileText E.num text l) (context : Option ℕ) (hc : context = none ∨ context = some R.own) :
    R.process E st text context =
      match seqsRun E (st.heap R.own, st.lines, st.runs) l with
      | .error e => .error e
      | .ok x => .ok (R.own, place st R.own x) := by
  have h' := parseCmds_text E R.own h st
  unfold SmtReader.process
  rcases hc with rfl | rfl
  · simp only [hR]
    rw [h']
    cases seqsRun E (st.heap R.own, st.lines, st.runs) l <;> rfl
  · simp only
    rw [h']
    cases seqsRun E (st.heap R.own, st.lines, st.runs) l <;> rfl

end

/-! ### Concrete files -/

/-- the value of a numeral -/
def testNum (neg : Bool) (ds es : List Char) : ℚ :=
  (if neg then -1 else 1) * ((Verif.Vts.decimal (ds ++ es) : ℚ) / 10 ^ es.length)

/-- surroundings for the examples, with a sound core -/
def testEnv (C : Core ℚ) : SmtEnv ℚ := ⟨constQuot, testNum, fun _ => C, testInt, fun a s => (a, s)⟩

theorem word_letter {c : Char} {r : List Char} (hc : isNum c = false) (h : ∀ d ∈ c :: r, isWord d = true) : Word (c :: r) ∨ c = '.' := by
  by_cases hd : c = '.'
  · exact Or.inr hd
  refine Or.inl ⟨by simp, fun d hd => isWord_iff.1 (h d hd), ?_⟩
  rintro ds x ⟨h1, h2⟩ e
  cases ds with
  | nil => exact h1 rfl
  | cons d ds =>
    simp only [List.cons_append, List.cons.injEq] at e
    have := isNum_iff.2 (h2 d (by simp))
    rw [← e.1, hc] at this
    cases this

theorem word_x : Word ['x'] := (word_letter (by decide) (by decide)).resolve_right (by decide)

theorem word_y : Word ['y'] := (word_letter (by decide) (by decide)).resolve_right (by decide)

theorem ws_one : Ws [' '] := by intro c hc; simp at hc; simp [hc]

theorem ws_zero : Ws [] := by intro c hc; simp at hc

theorem digits_test {c : Char} (h : isNum c = true) : Digits [c] :=
  ⟨by simp, fun d hd => by simp at hd; rw [hd]; exact isNum_iff.1 h⟩

/-- `(> x 0.)` -/
theorem text_gt (v : Char) (hv : Word [v]) : RelText testNum ['(', '>', ' ', v, ' ', '0', '.', ')']
    ⟨.gt, .word (String.ofList [v]), .num (testNum false ['0'] [])⟩ :=
  RelText.mk [] [' '] [' '] [] [v] ['0', '.'] .gt _ _ ws_zero ws_one ws_one ws_zero (TermText.word _ hv)
    (TermText.num false ['0'] [] (digits_test (by decide)) (Or.inl rfl))
    (fun c r h => by cases h; rw [← kwChar_iff]; decide)
    (fun c r h => by cases h; rw [← isWord_iff]; decide)

/-- `(> (+ x 1.)0.)`, without white space where none is needed -/
theorem text_goal : RelText testNum "(>(+x 1.)0.)".toList
    ⟨.gt, .add (.word (String.ofList ['x'])) (.num (testNum false ['1'] [])), .num (testNum false ['0'] [])⟩ :=
  RelText.mk [] [] [] [] "(+x 1.)".toList ['0', '.'] .gt _ _ ws_zero ws_zero ws_zero ws_zero
    (TermText.bin .add [] [] [' '] [] ['x'] ['1', '.'] _ _ ws_zero ws_zero ws_one ws_zero (TermText.word _ word_x)
      (TermText.num false ['1'] [] (digits_test (by decide)) (Or.inl rfl))
      (fun c r h => by cases h; rw [← isWord_iff]; decide))
    (TermText.num false ['0'] [] (digits_test (by decide)) (Or.inl rfl))
    (fun c r h => by cases h; rw [← kwChar_iff]; decide) trivial

/-- `x > 0, y > 0 ⊢ x + 1 > 0` -/
def fileSeq (name : List Char) : FileSeq :=
  ⟨name, [⟨.gt, .word (String.ofList ['x']), .num (testNum false ['0'] [])⟩,
      ⟨.gt, .word (String.ofList ['y']), .num (testNum false ['0'] [])⟩],
    [⟨.gt, .add (.word (String.ofList ['x'])) (.num (testNum false ['1'] [])), .num (testNum false ['0'] [])⟩]⟩

/-- the text of a sequent with a given name -/
def seqText (name : List Char) : List Char :=
  "(sequent \"".toList ++ name ++ "\" (antecedent (> x 0.) (> y 0.)) (succedent(>(+x 1.)0.)))".toList

theorem seqText_ok (name : List Char) (hn : '"' ∉ name) : SequentText testNum (seqText name) (fileSeq name) := by
  have h := SequentText.mk [] [' '] [' '] [] [' '] [] [] name _ _ _ _ ws_zero ws_one ws_one ws_zero ws_one ws_zero ws_zero hn
    (RelsText.cons [' '] _ _ _ _ ws_one (text_gt 'x' word_x)
      (RelsText.cons [' '] _ _ _ _ ws_one (text_gt 'y' word_y) (RelsText.nil [] ws_zero)))
    (RelsText.cons [] _ _ _ _ ws_zero text_goal (RelsText.nil [] ws_zero))
  have e : seqText name = "(sequent \"".toList ++ (name ++ "\" (antecedent (> x 0.) (> y 0.)) (succedent(>(+x 1.)0.)))".toList) := by
    unfold seqText
    rw [List.append_assoc]
  rw [e]
  exact h

/-- the file with one sequent, and white space around it -/
def oneText : List Char := '\n' :: (seqText ['s', '1'] ++ ['\n'])

/-- the file with two sequents -/
def twoText : List Char := seqText ['s', '1'] ++ (seqText ['s', '2'] ++ ['\n'])

theorem ws_nl : Ws ['\n'] := by intro c hc; simp at hc; simp [hc]

theorem oneText_ok : FileText testNum oneText ([] ++ [fileSeq ['s', '1']]) :=
  FileText.cons ['\n'] _ _ _ _ ws_nl (seqText_ok _ (by decide)) (FileText.nil _ ws_nl)

theorem twoText_ok : FileText testNum twoText [fileSeq ['s', '1'], fileSeq ['s', '2']] :=
  FileText.cons [] _ _ _ _ ws_zero (seqText_ok _ (by decide))
    (FileText.cons [] _ _ _ _ ws_zero (seqText_ok _ (by decide)) (FileText.nil _ ws_nl))

/-- The atom of `x > 0` when `x` is the first name. -/
def fileHyp : Atom := ⟨(MPoly.var 0).sub (MPoly.const 0), .gt, ((MPoly.var 0).sub (MPoly.const 0)).vars⟩

/-- The atom of `x + 1 > 0`. -/
def fileGoal : Atom :=
  ⟨((MPoly.var 0).add (MPoly.const 1)).sub (MPoly.const 0), .gt,
    (((MPoly.var 0).add (MPoly.const 1)).sub (MPoly.const 0)).vars⟩

/-- A sound core for the files above, like `soundCore`. -/
def fileCore : Core ℚ :=
  { testCore [] [] with
    samples := fun _ st =>
      if fileHyp ∈ st.goal.hyps ∧ st.goal.main = fileGoal then .ok []
      else if (st.goal.evalOnDict (testSage (K := ℚ)) [(0, -2), (1, 1)]).toOption = some false then
        .ok [[(0, -2), (1, 1)]]
      else .error .assertion }

theorem fileCore_sound : CoreSound fileCore := by
  intro n st ds h ht ρ hh
  change (if fileHyp ∈ st.goal.hyps ∧ st.goal.main = fileGoal then .ok []
      else if (st.goal.evalOnDict (testSage (K := ℚ)) [(0, -2), (1, 1)]).toOption = some false then
        .ok [[(0, -2), (1, 1)]]
      else .error .assertion : Except GErr (List (Dict ℚ))) = .ok ds at h
  split at h
  · next hg =>
    rw [hg.2]
    have h1 : MPoly.eval ρ ((MPoly.var 0).sub (MPoly.const 0)) > 0 := hh _ hg.1
    show MPoly.eval ρ (((MPoly.var 0).add (MPoly.const 1)).sub (MPoly.const 0)) > 0
    rw [MPoly.eval_sub, MPoly.eval_var, MPoly.eval_const] at h1
    rw [MPoly.eval_sub, MPoly.eval_add, MPoly.eval_var, MPoly.eval_const, MPoly.eval_const]
    push_cast at h1 ⊢
    linarith
  · split at h
    · next hf =>
      cases h
      have := ht _ (List.mem_singleton_self _)
      have h2 : st.goal.evalOnDict (testSage (K := ℚ)) [(0, -2), (1, 1)] = .ok true := this
      rw [h2] at hf
      cases hf
    · cases h

/-- The hypotheses of the theorems of C74 are met by a run on a file: the formula `y > 0` is reported. -/
example : QuotOK ℚ (testEnv fileCore).quot ∧ (∀ n, SageOK ((testEnv fileCore).core n).toSage) ∧
    (∀ n, CoreSound ((testEnv fileCore).core n)) ∧ FileText (testEnv fileCore).num oneText ([] ++ [fileSeq ['s', '1']]) ∧
    (grfOnFile (testEnv fileCore) false true [] oneText).toOption =
      some ⟨(1, 0), some "(\"s1\" (hide_antecedent_1) ())".toList⟩ :=
  ⟨constQuot_ok, fun _ => testSage_ok, fun _ => fileCore_sound, oneText_ok, by decide +kernel⟩

/-- The same in a session in which an unknown word and `0` are typed in, and in one in which `1` and then `0` are typed in
(then both hypotheses are used and nothing is reported). -/
example : (grfOnFile (testEnv fileCore) true true [['h', 'm'], ['0']] oneText).toOption =
      some ⟨(1, 0), some "(\"s1\" (hide_antecedent_1) ())".toList⟩ ∧
    (grfOnFile (testEnv fileCore) true false [['1'], ['0']] oneText).toOption = some ⟨(0, 0), none⟩ := by
  decide +kernel

/-- the run on the file with two sequents -/
theorem twoText_run : grfOnFile (testEnv fileCore) false true [] twoText =
    .ok ⟨(1, 0), some "(\"s2\" (hide_antecedent_1) ())".toList⟩ := by
  have h : (grfOnFile (testEnv fileCore) false true [] twoText).toOption =
    some ⟨(1, 0), some "(\"s2\" (hide_antecedent_1) ())".toList⟩ := by decide +kernel
  revert h
  cases grfOnFile (testEnv fileCore) false true [] twoText with
  | error e => intro h; cases h
  | ok r => intro h; cases h; rfl

/-- **C75** is violated: a file with two sequents is processed without an exception, but the output does not mention the
first of them. -/
theorem C75_violated : ∃ (E : SmtEnv ℚ) (text : List Char) (q q' : FileSeq) (o : SmtOut) (out : List Char),
    FileText E.num text [q, q'] ∧ grfOnFile E false true [] text = .ok o ∧ o.file = some out ∧ q.name ≠ q'.name ∧
      ¬ q.name <:+: out := by
  refine ⟨testEnv fileCore, twoText, fileSeq ['s', '1'], fileSeq ['s', '2'], _, _, twoText_ok, twoText_run, rfl,
    by decide, ?_⟩
  show ¬ ['s', '1'] <:+: "(\"s2\" (hide_antecedent_1) ())".toList
  decide +kernel

/-- C75_partial applies to the two files. -/
example : FileText (testEnv fileCore).num twoText ([fileSeq ['s', '1']] ++ [fileSeq ['s', '2']]) := twoText_ok

theorem fileText_head {num : Bool → List Char → List Char → ℚ} {text : List Char} {l : List FileSeq} (hl : l ≠ [])
    (h : FileText num text l) : ∃ r, skipWs text = '(' :: r := by
  cases h with
  | nil => exact absurd rfl hl
  | cons w s rest q l hw hs hr =>
    obtain ⟨x, hx⟩ := seqText_head hs
    exact ⟨x ++ rest, by rw [hx, List.cons_append, skipWs_wc hw (by decide)]⟩

/-- C76: a file that begins with a comment, and one that is empty up to white space. -/
example : (∀ l, l ≠ [] → ¬ FileText (testEnv fileCore).num (";;\n".toList ++ oneText) l) ∧ Ws [' ', '\n'] := by
  refine ⟨?_, ?_⟩
  · intro l hl h
    obtain ⟨r, hr⟩ := fileText_head hl h
    have h2 : (skipWs (";;\n".toList ++ oneText)).head? = some ';' := by decide +kernel
    rw [hr] at h2
    cases h2
  · intro c hc
    simp only [List.mem_cons, List.not_mem_nil, or_false] at hc
    rcases hc with rfl | rfl <;> simp

/-- C76, the text of a result. -/
example : resultText "my \n name".toList [0, 12] [3] =
    "(\"my \n name\" (hide_antecedent_0 hide_antecedent_12) (hide_succedent_3))".toList ∧
    '"' ∉ "my \n name".toList := by decide +kernel

/-- C77: the contexts 0 and 1 of a new object are different, and the file above contains a sequent. -/
example : 1 ≠ (SmtReader.new false []).1.own ∧ [fileSeq ['s', '1']] ≠ [] ∧
    FileText (testEnv fileCore).num oneText [fileSeq ['s', '1']] := ⟨by decide, by simp, oneText_ok⟩

/-- C77: a session in which a text is processed, the context is cleared, and the text is processed again: the second call
returns, and the context that it returns has no result. -/
example : (match (SmtReader.new false []).1.process (testEnv fileCore) (SmtReader.new false []).2 oneText none with
    | .error _ => none
    | .ok x =>
      match ((SmtReader.new false []).1.clear x.2).1.process (testEnv fileCore)
          ((SmtReader.new false []).1.clear x.2).2 oneText none with
      | .error _ => none
      | .ok y => some ((x.2.heap x.1).result, y.1, (y.2.heap y.1).result)) =
    some (some ([1], []), 1, none) ∧ (SmtReader.new false []).1.fresh ≠ (SmtReader.new false []).1.own := by
  decide +kernel

/-- C77_partial: a new object. -/
example : (SmtReader.new false []).1.cur = (SmtReader.new false []).1.own := rfl

/-! ### C56, again -/

/-- **C56** is violated for negative numbers as well: `-1.5` and `5` are texts of names, while `~1.5` is the text of a
number, and `(- 1.5e3)` is the text of the difference of a number and a name. -/
theorem C56_text_violated :
    TermText testNum "-1.5".toList (.word "-1.5") ∧ TermText testNum "5".toList (.word "5") ∧
    TermText testNum "~1.5".toList (.num (-3 / 2)) ∧
    TermText testNum "(- 1.5e3)".toList (.sub (.num (3 / 2)) (.word "e3")) := by
  have hw : Word "-1.5".toList := (word_letter (c := '-') (r := ['1', '.', '5']) (by decide) (by decide)).resolve_right (by decide)
  have he : Word "e3".toList := (word_letter (c := 'e') (r := ['3']) (by decide) (by decide)).resolve_right (by decide)
  have h5 : Word "5".toList := by
    refine ⟨by decide, fun c hc => ?_, ?_⟩
    · simp at hc; rw [hc, ← isWord_iff]; decide
    · rintro ds r ⟨h1, h2⟩ e
      have := congrArg List.length e
      simp at this
      have h3 : ds.length ≠ 0 := by simpa using h1
      have : ds.length + (r.length + 1) = 1 := by omega
      omega
  have n1 : testNum true ['1'] ['5'] = -3 / 2 := by decide +kernel
  have n2 : testNum false ['1'] ['5'] = 3 / 2 := by decide +kernel
  refine ⟨TermText.word _ hw, TermText.word _ h5, ?_, ?_⟩
  · rw [← n1]
    exact TermText.num true ['1'] ['5'] (digits_test (by decide)) (Or.inr (digits_test (by decide)))
  · rw [← n2]
    exact TermText.bin .sub [] [' '] [] [] "1.5".toList "e3".toList _ _ ws_zero ws_one ws_zero ws_zero
      (TermText.num false ['1'] ['5'] (digits_test (by decide)) (Or.inr (digits_test (by decide))))
      (TermText.word _ he) (fun c r h => by cases h; rw [← isNum_iff]; decide)

end Verif.Grf
