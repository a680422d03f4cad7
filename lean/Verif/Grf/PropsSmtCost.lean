import Verif.Grf.SmtCost
import Verif.Grf.PropsSmtText
import Verif.Grf.PropsSmtUnique
import Mathlib.Analysis.SpecificLimits.Normed
import Mathlib.Tactic.Ring

/-!
# C126: the number of parse actions that reading an input file takes
-/

set_option linter.unusedSectionVars false

namespace Verif.Grf

open Verif.Vts (isWs skipWs isNum isAlpha digits1 Ws Digits skipWs_ws skipWs_cons skipWs_wc isNum_iff)

variable {K : Type} [Field K] [LinearOrder K] [IsStrictOrderedRing K]

/-! ### The counter changes nothing -/

section Erase
variable {σ α β : Type}

/-- Forgetting the counter. -/
def forgetCount (x : Except SErr ((σ × ℕ) × α)) : Except SErr (σ × α) :=
  match x with
  | .error e => .error e
  | .ok (s, a) => .ok (s.1, a)

/-- `q` is `p` with a counter. -/
def Counted (p : SP σ α) (q : SP (σ × ℕ) α) : Prop := ∀ st k i, forgetCount (q (st, k) i) = p st i

theorem counted_pure (a : α) : Counted (pure a : SP σ α) (pure a) := fun _ _ _ => rfl

theorem counted_stok (f : List Char → Option (α × List Char)) : Counted (stok f : SP σ α) (stok f) := fun _ _ _ => rfl

theorem counted_uncounted (p : SP σ α) : Counted p (uncounted p) := by
  intro st k i
  unfold uncounted
  simp only
  cases p st i with
  | error e => rfl
  | ok x => rfl

theorem counted_bind {p : SP σ α} {q : SP (σ × ℕ) α} {f : α → SP σ β} {g : α → SP (σ × ℕ) β} (h : Counted p q)
    (h' : ∀ a, Counted (f a) (g a)) : Counted (p >>= f) (q >>= g) := by
  intro st k i
  have e := h st k i
  simp only [bind]
  cases hq : q (st, k) i with
  | error e' =>
    rw [hq] at e
    rw [← e]
    rfl
  | ok x =>
    obtain ⟨⟨s, k'⟩, o⟩ := x
    rw [hq] at e
    rw [← e]
    cases o with
    | none => rfl
    | some y => exact h' y.1 s k' y.2

theorem counted_tick {p : SP σ α} {q : SP (σ × ℕ) α} (h : Counted p q) : Counted p (tick >>= fun _ => q) :=
  fun st k i => h st (k + 1) i

theorem counted_alt {p p' : SP σ α} {q q' : SP (σ × ℕ) α} (h : Counted p q) (h' : Counted p' q') :
    Counted (p.alt p') (q.alt q') := by
  intro st k i
  have e := h st k i
  unfold SP.alt
  cases hq : q (st, k) i with
  | error e' =>
    rw [hq] at e
    rw [← e]
    rfl
  | ok x =>
    obtain ⟨⟨s, k'⟩, o⟩ := x
    rw [hq] at e
    rw [← e]
    cases o with
    | none => exact h' s k' i
    | some y => rfl

theorem counted_smany {p : SP σ α} {q : SP (σ × ℕ) α} (h : Counted p q) : ∀ n, Counted (smany p n) (smany q n)
  | 0 => fun _ _ _ => rfl
  | n + 1 => by
    intro st k i
    have e := h st k i
    unfold smany
    cases hq : q (st, k) i with
    | error e' =>
      rw [hq] at e
      rw [← e]
      rfl
    | ok x =>
      obtain ⟨⟨s, k'⟩, o⟩ := x
      rw [hq] at e
      rw [← e]
      cases o with
      | none => rfl
      | some y => exact counted_bind (counted_smany h n) (fun _ => counted_pure _) s k' y.2

end Erase

theorem counted_num (E : SmtEnv K) : Counted (numP E) (wnum E) :=
  counted_bind (counted_stok _) fun _ => counted_tick (counted_pure _)

theorem counted_word : Counted wordP wword :=
  counted_bind (counted_stok _) fun _ => counted_tick (counted_uncounted _)

theorem counted_fn2 (op : Char) (f : MPoly → MPoly → Option MPoly) {p : SP Ctx MPoly} {q : SP (Ctx × ℕ) MPoly}
    (h : Counted p q) : Counted (sfn2 op f p) (wfn2 op f q) :=
  counted_bind (counted_stok _) fun _ => counted_bind (counted_stok _) fun _ => counted_bind h fun _ =>
    counted_bind h fun _ => counted_bind (counted_stok _) fun _ => counted_tick (counted_uncounted _)

theorem counted_neg {p : SP Ctx MPoly} {q : SP (Ctx × ℕ) MPoly} (h : Counted p q) : Counted (sfnNeg p) (wfnNeg q) :=
  counted_bind (counted_stok _) fun _ => counted_bind (counted_stok _) fun _ => counted_bind h fun _ =>
    counted_bind (counted_stok _) fun _ => counted_tick (counted_pure _)

theorem counted_term (E : SmtEnv K) : ∀ n, Counted (sterm E n) (wterm E n)
  | 0 => fun _ _ _ => rfl
  | n + 1 => by
    have h := counted_term E n
    exact counted_alt (counted_num E) (counted_alt counted_word (counted_alt (counted_fn2 _ _ h)
      (counted_alt (counted_fn2 _ _ h) (counted_alt (counted_fn2 _ _ h) (counted_alt (counted_fn2 _ _ h)
        (counted_neg h))))))

theorem counted_rln (E : SmtEnv K) (sym : List Char) (op : String) (n : ℕ) :
    Counted (srln E sym op n) (wrln E sym op n) :=
  counted_bind (counted_stok _) fun _ => counted_bind (counted_stok _) fun _ => counted_bind (counted_term E n) fun _ =>
    counted_bind (counted_term E n) fun _ => counted_bind (counted_stok _) fun _ => counted_tick (counted_uncounted _)

theorem counted_fml (E : SmtEnv K) (n : ℕ) : Counted (sfml E n) (wfml E n) :=
  counted_alt (counted_rln E _ _ n) (counted_alt (counted_rln E _ _ n) (counted_alt (counted_rln E _ _ n)
    (counted_alt (counted_rln E _ _ n) (counted_alt (counted_rln E _ _ n) (counted_rln E _ _ n)))))

theorem counted_zoom {α : Type} (o : ℕ) {p : SP Ctx α} {q : SP (Ctx × ℕ) α} (h : Counted p q) :
    Counted (zoom o p) (wzoom o q) := by
  intro st k i
  have e := h (st.heap o).ctx k i
  unfold zoom wzoom
  simp only
  rw [← e]
  cases q ((st.heap o).ctx, k) i with
  | error e' => rfl
  | ok x => rfl

theorem counted_side (E : SmtEnv K) (o : ℕ) (kwd : List Char) (n : ℕ) : Counted (sside E o kwd n) (wside E o kwd n) :=
  counted_bind (counted_stok _) fun _ => counted_bind (counted_stok _) fun _ =>
    counted_bind (counted_smany (counted_zoom o (counted_fml E n)) n) fun _ => counted_bind (counted_stok _) fun _ =>
      counted_pure _

theorem counted_cmd (E : SmtEnv K) (o own n : ℕ) : Counted (scmd E o own n) (wcmd E o own n) :=
  counted_bind (counted_stok _) fun _ => counted_bind (counted_stok _) fun _ => counted_bind (counted_stok _) fun _ =>
    counted_bind (counted_side E o _ n) fun _ => counted_tick <| counted_bind (counted_uncounted _) fun _ =>
      counted_bind (counted_side E o _ n) fun _ => counted_tick <| counted_bind (counted_uncounted _) fun _ =>
        counted_bind (counted_stok _) fun _ => counted_tick (counted_uncounted _)

theorem counted_cmds (E : SmtEnv K) (o own n : ℕ) : ∀ m st k i,
    forgetCount (wcmds E o own n m (st, k) i) = scmds E o own n m st i
  | 0, _, _, _ => rfl
  | m + 1, st, k, i => by
    have e := counted_cmd E o own n st k i
    unfold wcmds scmds
    cases hq : wcmd E o own n (st, k) i with
    | error e' =>
      rw [hq] at e
      rw [← e]
      simp only [forgetCount]
      by_cases hi : e' = .act (.loop .indexError)
      · simp only [if_pos hi]
      · simp only [if_neg hi]
    | ok x =>
      obtain ⟨⟨s, k'⟩, y⟩ := x
      rw [hq] at e
      rw [← e]
      cases y with
      | none => rfl
      | some y => exact counted_cmds E o own n m s k' y.2

/-- **C126**, what is counted: reading with a counter is reading. -/
theorem C126_counted (E : SmtEnv K) (cur own : ℕ) (text : List Char) (st : SmtState) :
    (wparseCmds E cur own text st).map Prod.fst = parseCmds E cur own text st ∧
      (wfmlsTokenList E cur text st).map (fun x => (x.1, x.2.1)) = fmlsTokenList E cur text st := by
  constructor
  · unfold wparseCmds parseCmds
    rw [← counted_cmds E cur own _ _ st 0]
    cases wcmds E cur own (text.length + 1) (text.length + 1) (st, 0) text with
    | error e => rfl
    | ok x =>
      simp only [forgetCount]
      split <;> rfl
  · unfold wfmlsTokenList fmlsTokenList
    rw [← counted_smany (counted_zoom cur (counted_fml E (text.length + 1))) _ st 0]
    cases smany (wzoom cur (wfml E (text.length + 1))) (text.length + 1) (st, 0) text with
    | error e => rfl
    | ok x =>
      obtain ⟨s, y⟩ := x
      cases y with
      | none => rfl
      | some y =>
        simp only [forgetCount]
        split <;> rfl

/-! ### The number of actions -/

/-- The number of parse actions for a term: one for each number, name and operation, but the argument of a unary minus is
read twice. -/
def Tm.acts : Tm → ℕ
  | .num _ | .word _ => 1
  | .add a b | .mul a b | .sub a b | .div a b => a.acts + b.acts + 1
  | .neg a => 2 * a.acts + 1

/-- The number of parse actions for a list of formulas. -/
def fmsActs (l : List Fm) : ℕ := (l.map fun f => f.lhs.acts + f.rhs.acts + 1).sum

/-- The number of parse actions for a list of sequents; three for each besides those for its formulas. -/
def seqActs (l : List FileSeq) : ℕ := (l.map fun q => fmsActs q.ante + fmsActs q.succ + 3).sum

theorem BinOp.acts (o : BinOp) (a b : Tm) : (o.tm a b).acts = a.acts + b.acts + 1 := by cases o <;> rfl

theorem wfn2_wrong {op d : Char} {f : MPoly → MPoly → Option MPoly} {T : SP (Ctx × ℕ) MPoly} {w w₁ r : List Char}
    (hw : Ws w) (hw₁ : Ws w₁) (hd : isWs d = false) (hne : op ≠ d) (st : Ctx × ℕ) :
    wfn2 op f T st (w ++ '(' :: (w₁ ++ d :: r)) = .ok (st, none) := by
  unfold wfn2
  rw [sbind_some (slit1_ok hw (by decide))]
  exact sbind_none (slit1_fail hw₁ hd hne)

theorem wfn2_nolpar {op c : Char} {f : MPoly → MPoly → Option MPoly} {T : SP (Ctx × ℕ) MPoly} {w r : List Char}
    (hw : Ws w) (hc : isWs c = false) (hne : c ≠ '(') (st : Ctx × ℕ) :
    wfn2 op f T st (w ++ c :: r) = .ok (st, none) := by
  unfold wfn2
  exact sbind_none (slit1_fail hw hc hne.symm)

theorem wnum_eq (E : SmtEnv K) (st : Ctx) (k : ℕ) (i : List Char) : wnum E (st, k) i =
    match numP E st i with
    | .error e => .error e
    | .ok (s, none) => .ok ((s, k), none)
    | .ok (s, some x) => .ok ((s, k + 1), some x) := by
  unfold wnum numP stok
  simp only [bind]
  cases numTok i <;> rfl

theorem wword_eq (st : Ctx) (k : ℕ) (i : List Char) : wword (st, k) i =
    match wordP st i with
    | .error e => .error e
    | .ok (s, none) => .ok ((s, k), none)
    | .ok (s, some x) => .ok ((s, k + 1), some x) := by
  unfold wword wordP stok
  simp only [bind]
  cases wordTok i <;> rfl

theorem wleafs_fail (E : SmtEnv K) {w r : List Char} {c : Char} (hw : Ws w) (h : isWs c = false) (hc : c ≠ '~')
    (hn : isWord c = false) (st : Ctx) (k : ℕ) {q : SP (Ctx × ℕ) MPoly} :
    (wnum E).alt (wword.alt q) (st, k) (w ++ c :: r) = q (st, k) (w ++ c :: r) := by
  have hnum : isNum c = false := by
    cases h' : isNum c with
    | false => rfl
    | true => rw [isWord_of_isNum h'] at hn; cases hn
  have h1 : wnum E (st, k) (w ++ c :: r) = .ok ((st, k), none) := by
    unfold wnum
    exact sbind_none (stok_none (numTok_fail hw h hc hnum))
  have h2 : wword (st, k) (w ++ c :: r) = .ok ((st, k), none) := by
    unfold wword
    apply sbind_none
    apply stok_none
    unfold wordTok
    rw [skipWs_wc hw h]
    simp [hn]
  rw [salt_none h1, salt_none h2]

theorem wterm_rpar (E : SmtEnv K) {w r : List Char} (hw : Ws w) (n : ℕ) (st : Ctx) (k : ℕ) :
    wterm E (n + 1) (st, k) (w ++ ')' :: r) = .ok ((st, k), none) := by
  unfold wterm
  rw [wleafs_fail E hw (by decide) (by decide) (by decide) st k,
    salt_none (wfn2_nolpar hw (by decide) (by decide) _), salt_none (wfn2_nolpar hw (by decide) (by decide) _),
    salt_none (wfn2_nolpar hw (by decide) (by decide) _), salt_none (wfn2_nolpar hw (by decide) (by decide) _)]
  unfold wfnNeg
  exact sbind_none (slit1_fail hw (by decide) (by decide))

/-- What does not begin with a bracket takes one action. -/
theorem wterm_leaf (E : SmtEnv K) {w r : List Char} {c : Char} (hw : Ws w) (h : isWs c = false) (hc : c ≠ '(') (n : ℕ)
    (st st' : Ctx) (k : ℕ) (x : MPoly × List Char) (hs : sterm E (n + 1) st (w ++ c :: r) = .ok (st', some x)) :
    wterm E (n + 1) (st, k) (w ++ c :: r) = .ok ((st', k + 1), some x) := by
  unfold sterm at hs
  unfold wterm
  have fail : ∀ op f (st : Ctx), sfn2 op f (sterm E n) st (w ++ c :: r) = .ok (st, none) :=
    fun op f st => sfn2_nolpar hw h hc st
  rcases salt_ok hs with hs | ⟨s, h1, hs⟩
  · apply salt_some
    rw [wnum_eq, hs]
  · have h1' : wnum E (st, k) (w ++ c :: r) = .ok ((s, k), none) := by rw [wnum_eq, h1]
    rw [salt_none h1']
    rcases salt_ok hs with hs | ⟨s', h2, hs⟩
    · apply salt_some
      rw [wword_eq, hs]
    · rw [salt_none (fail _ _ _), salt_none (fail _ _ _), salt_none (fail _ _ _), salt_none (fail _ _ _)] at hs
      unfold sfnNeg at hs
      rw [sbind_none (slit1_fail hw h hc.symm)] at hs
      cases hs

/-- Reading a term takes `Tm.acts` actions. -/
theorem wterm_text (E : SmtEnv K) {s : List Char} {t : Tm} (h : TermText E.num s t) : ∀ n, s.length ≤ n →
    ∀ (st st' : Ctx) (k : ℕ) (w rest : List Char) (p : MPoly), Ws w → Ends t rest → readTm E.quot st t = .ok (p, st') →
      wterm E n (st, k) (w ++ (s ++ rest)) = .ok ((st', k + t.acts), some (p, rest)) := by
  have leaf : ∀ {s : List Char} {t : Tm}, TermText E.num s t → t.acts = 1 → (∀ c r, s = c :: r → isWs c = false ∧ c ≠ '(') →
      ∀ n, s.length ≤ n → ∀ (st st' : Ctx) (k : ℕ) (w rest : List Char) (p : MPoly), Ws w → Ends t rest →
        readTm E.quot st t = .ok (p, st') →
        wterm E n (st, k) (w ++ (s ++ rest)) = .ok ((st', k + t.acts), some (p, rest)) := by
    intro s t h ht hc n hn st st' k w rest p hw hr hp
    have hs := sterm_text E h n hn st w rest hw hr
    rw [hp] at hs
    obtain ⟨c, r, rfl, _⟩ := stext_first h
    obtain ⟨n, rfl⟩ : ∃ m, n = m + 1 := ⟨n - 1, by simp at hn; omega⟩
    rw [ht]
    obtain ⟨h1, h2⟩ := hc c r rfl
    exact wterm_leaf E hw h1 h2 n st st' k _ hs
  induction h with
  | num neg ds es h h' =>
    refine leaf (.num neg ds es h h') rfl ?_
    intro c r e
    cases neg with
    | true => cases e; exact ⟨by decide, by decide⟩
    | false =>
      obtain ⟨d, ds', rfl⟩ := List.exists_cons_of_ne_nil h.1
      cases e
      have := word_facts (isWord_of_isNum (isNum_iff.2 (h.2 c (by simp))))
      exact ⟨this.1, this.2.2.1⟩
  | word s h =>
    refine leaf (.word s h) rfl ?_
    intro c r e
    have := word_facts (isWord_iff.2 (h.2.1 c (by rw [e]; simp)))
    exact ⟨this.1, this.2.2.1⟩
  | bin o w₁ w₂ w₃ w₄ a b ta tb h₁ h₂ h₃ h₄ ha hb hs iha ihb =>
    intro n hn st st' k w rest p hw hr hp
    obtain ⟨n, rfl⟩ : ∃ m, n = m + 1 := ⟨n - 1, by simp at hn; omega⟩
    have e : w ++ ('(' :: (w₁ ++ o.sym :: (w₂ ++ (a ++ (w₃ ++ (b ++ (w₄ ++ [')'])))))) ++ rest) =
        w ++ '(' :: (w₁ ++ o.sym :: (w₂ ++ (a ++ (w₃ ++ (b ++ (w₄ ++ ')' :: rest)))))) := by simp
    have hk : wfn2 o.sym (o.act E) (wterm E n) (st, k)
        (w ++ '(' :: (w₁ ++ o.sym :: (w₂ ++ (a ++ (w₃ ++ (b ++ (w₄ ++ ')' :: rest))))))) =
          .ok ((st', k + (o.tm ta tb).acts), some (p, rest)) := by
      rw [readTm_bin] at hp
      cases hra : readTm E.quot st ta with
      | error e => rw [hra] at hp; cases hp
      | ok r =>
        rw [hra] at hp
        simp only at hp
        cases hrb : readTm E.quot r.2 tb with
        | error e => rw [hrb] at hp; cases hp
        | ok r' =>
          rw [hrb] at hp
          simp only at hp
          cases hq : o.act E r.1 r'.1 with
          | none => rw [hq] at hp; cases hp
          | some q =>
            rw [hq] at hp
            cases hp
            have e₁ := iha n (by simp at hn; omega) st r.2 k w₂ (w₃ ++ (b ++ (w₄ ++ ')' :: rest))) r.1 h₂
              (ends_append hb hs _) hra
            have e₂ := ihb n (by simp at hn; omega) r.2 r'.2 (k + ta.acts) w₃ (w₄ ++ ')' :: rest) r'.1 h₃ (ends_rpar h₄) hrb
            unfold wfn2
            rw [sbind_some (slit1_ok hw (by decide)), sbind_some (slit1_ok h₁ (by cases o <;> decide)), sbind_some e₁,
              sbind_some e₂, sbind_some (slit1_ok h₄ (by decide)), BinOp.acts]
            show uncounted _ (r'.2, k + ta.acts + tb.acts + 1) rest = _
            unfold uncounted saction
            simp only [hq, Nat.add_assoc]
    rw [e]
    unfold wterm
    rw [wleafs_fail E hw (by decide) (by decide) (by decide) st k]
    have wrong : ∀ (op : Char) (f : MPoly → MPoly → Option MPoly), op ≠ o.sym → ∀ st' : Ctx × ℕ,
        wfn2 op f (wterm E n) st' (w ++ '(' :: (w₁ ++ o.sym :: (w₂ ++ (a ++ (w₃ ++ (b ++ (w₄ ++ ')' :: rest))))))) =
          .ok (st', none) := fun op f hne st' => wfn2_wrong hw h₁ (by cases o <;> decide) hne st'
    cases o with
    | div => exact salt_some hk
    | add => rw [salt_none (wrong '/' _ (by decide) _)]; exact salt_some hk
    | mul =>
      rw [salt_none (wrong '/' _ (by decide) _), salt_none (wrong '+' _ (by decide) _)]
      exact salt_some hk
    | sub =>
      rw [salt_none (wrong '/' _ (by decide) _), salt_none (wrong '+' _ (by decide) _),
        salt_none (wrong '*' _ (by decide) _)]
      exact salt_some hk
  | neg w₁ w₂ w₄ a ta h₁ h₂ h₄ ha iha =>
    intro n hn st st' k w rest p hw hr hp
    obtain ⟨n, rfl⟩ : ∃ m, n = m + 1 := ⟨n - 1, by simp at hn; omega⟩
    have e : w ++ ('(' :: (w₁ ++ '-' :: (w₂ ++ (a ++ (w₄ ++ [')'])))) ++ rest) =
        w ++ '(' :: (w₁ ++ '-' :: (w₂ ++ (a ++ (w₄ ++ ')' :: rest)))) := by simp
    have hlen : a.length ≤ n := by simp at hn; omega
    obtain ⟨m, rfl⟩ : ∃ m, n = m + 1 := by
      obtain ⟨c, r, hac, _⟩ := stext_first ha
      rw [hac] at hlen
      simp at hlen
      exact ⟨n - 1, by omega⟩
    simp only [readTm, bind, Except.bind] at hp
    cases hra : readTm E.quot st ta with
    | error err => rw [hra] at hp; cases hp
    | ok r =>
      rw [hra] at hp
      cases hp
      have e₁ := iha (m + 1) hlen st r.2 k w₂ (w₄ ++ ')' :: rest) r.1 h₂ (ends_rpar h₄) hra
      have e₂ := iha (m + 1) hlen r.2 r.2 (k + ta.acts) w₂ (w₄ ++ ')' :: rest) r.1 h₂ (ends_rpar h₄)
        ((readTm_again ta st r.2 r.1 hra).2 r.2 (CtxLe.refl _))
      have hsub : wfn2 '-' (fun a b => some (a.sub b)) (wterm E (m + 1)) (st, k)
          (w ++ '(' :: (w₁ ++ '-' :: (w₂ ++ (a ++ (w₄ ++ ')' :: rest))))) = .ok ((r.2, k + ta.acts), none) := by
        unfold wfn2
        rw [sbind_some (slit1_ok hw (by decide)), sbind_some (slit1_ok h₁ (by decide)), sbind_some e₁]
        exact sbind_none (wterm_rpar E h₄ m _ _)
      rw [e, wterm, wleafs_fail E hw (by decide) (by decide) (by decide) st k,
        salt_none (wfn2_wrong hw h₁ (by decide) (by decide) _), salt_none (wfn2_wrong hw h₁ (by decide) (by decide) _),
        salt_none (wfn2_wrong hw h₁ (by decide) (by decide) _), salt_none hsub]
      unfold wfnNeg
      rw [sbind_some (slit1_ok hw (by decide)), sbind_some (slit1_ok h₁ (by decide)), sbind_some e₂,
        sbind_some (slit1_ok h₄ (by decide))]
      show Except.ok ((r.2, k + ta.acts + ta.acts + 1), some ((MPoly.const 0).sub r.1, rest)) = _
      rw [Tm.acts, show k + ta.acts + ta.acts + 1 = k + (2 * ta.acts + 1) by ring]

/-- The exact number of actions for a relation, once its symbol is found. -/
theorem wrln_ok (E : SmtEnv K) {k : Op} {w w₁ w₂ w₃ w₄ a b rest : List Char} {ta tb : Tm} (hw : Ws w) (hw₁ : Ws w₁)
    (hw₂ : Ws w₂) (hw₃ : Ws w₃) (hw₄ : Ws w₄) (ha : TermText E.num a ta) (hb : TermText E.num b tb)
    (hk : ∀ c r, w₂ ++ a = c :: r → ¬ KwChar c) (hs : Ends ta (w₃ ++ b)) (n : ℕ) (hla : a.length ≤ n)
    (hlb : b.length ≤ n) (st st' : Ctx) (c : ℕ) (x : Atom) (hx : readFm E.quot st ⟨k, ta, tb⟩ = .ok (x, st')) :
    wrln E (relSym k) k.toString n (st, c)
      (w ++ '(' :: (w₁ ++ (relSym k ++ (w₂ ++ (a ++ (w₃ ++ (b ++ (w₄ ++ ')' :: rest)))))))) =
      .ok ((st', c + (ta.acts + tb.acts + 1)), some (x, rest)) := by
  have ek := skw_sym (σ := Ctx × ℕ) k k hw₁ (st, c) (by cases k <;> simp) (by cases k <;> simp)
    (after_sym hw₂ ha hk (w₃ ++ (b ++ (w₄ ++ ')' :: rest))))
  rw [if_pos rfl] at ek
  simp only [readFm, bind, Except.bind] at hx
  cases hra : readTm E.quot st ta with
  | error e => rw [hra] at hx; cases hx
  | ok r =>
    rw [hra] at hx
    simp only at hx
    cases hrb : readTm E.quot r.2 tb with
    | error e => rw [hrb] at hx; cases hx
    | ok r' =>
      rw [hrb] at hx
      simp only at hx
      have e₁ := wterm_text E ha n hla st r.2 c w₂ (w₃ ++ (b ++ (w₄ ++ ')' :: rest))) r.1 hw₂ (ends_append hb hs _) hra
      have e₂ := wterm_text E hb n hlb r.2 r'.2 (c + ta.acts) w₃ (w₄ ++ ')' :: rest) r'.1 hw₃ (ends_rpar hw₄) hrb
      unfold wrln
      rw [sbind_some (slit1_ok hw (by decide)), sbind_some ek, sbind_some e₁, sbind_some e₂,
        sbind_some (slit1_ok hw₄ (by decide))]
      show uncounted _ (r'.2, c + ta.acts + tb.acts + 1) rest = _
      unfold uncounted saction
      cases hm : mkAtom r.1 k.toString r'.1 with
      | error e => rw [hm] at hx; cases hx
      | ok y =>
        rw [hm] at hx
        cases hx
        simp only [Nat.add_assoc]

theorem wrln_fail (E : SmtEnv K) {k k' : Op} {op : String} (hkk : k' ≠ k) (hk : (k', k) ≠ (Op.lt, Op.le))
    (hk' : (k', k) ≠ (Op.gt, Op.ge)) {w w₁ r : List Char} (hw : Ws w) (hw₁ : Ws w₁)
    (hr : ∃ d x, r = d :: x ∧ (isAlpha d || isNum d || d == '_' || d == '$') = false ∧ d ≠ '=') (n : ℕ)
    (st : Ctx × ℕ) : wrln E (relSym k') op n st (w ++ '(' :: (w₁ ++ (relSym k ++ r))) = .ok (st, none) := by
  unfold wrln
  rw [sbind_some (slit1_ok hw (by decide))]
  apply sbind_none
  rw [skw_sym k k' hw₁ st hk hk' hr, if_neg hkk]

theorem wfml_text (E : SmtEnv K) {s : List Char} {f : Fm} (h : RelText E.num s f) (n : ℕ) (hl : s.length ≤ n)
    (st st' : Ctx) (c : ℕ) (w rest : List Char) (x : Atom) (hw : Ws w) (hx : readFm E.quot st f = .ok (x, st')) :
    wfml E n (st, c) (w ++ (s ++ rest)) = .ok ((st', c + (f.lhs.acts + f.rhs.acts + 1)), some (x, rest)) := by
  obtain ⟨w₁, w₂, w₃, w₄, a, b, k, ta, tb, h₁, h₂, h₃, h₄, ha, hb, hk, hs⟩ := h
  have e : w ++ ('(' :: (w₁ ++ (relSym k ++ (w₂ ++ (a ++ (w₃ ++ (b ++ (w₄ ++ [')']))))))) ++ rest) =
      w ++ '(' :: (w₁ ++ (relSym k ++ (w₂ ++ (a ++ (w₃ ++ (b ++ (w₄ ++ ')' :: rest))))))) := by simp
  rw [e]
  simp only [List.length_cons, List.length_append] at hl
  have ok := wrln_ok E (k := k) (rest := rest) hw h₁ h₂ h₃ h₄ ha hb hk hs n (by omega) (by omega) st st' c x hx
  have fail := fun k' op hkk h h' => wrln_fail E (k := k) (k' := k') (op := op) hkk h h' hw h₁
    (after_sym h₂ ha hk (w₃ ++ (b ++ (w₄ ++ ')' :: rest)))) n (st, c)
  have hf : wfml E n = (wrln E (relSym .le) Op.le.toString n).alt ((wrln E (relSym .lt) Op.lt.toString n).alt
    ((wrln E (relSym .ne) Op.ne.toString n).alt ((wrln E (relSym .eq) Op.eq.toString n).alt
      ((wrln E (relSym .ge) Op.ge.toString n).alt (wrln E (relSym .gt) Op.gt.toString n))))) := rfl
  rw [hf]
  cases k with
  | le => exact salt_some ok
  | lt => rw [salt_none (fail .le _ (by decide) (by decide) (by decide))]; exact salt_some ok
  | ne =>
    rw [salt_none (fail .le _ (by decide) (by decide) (by decide)),
      salt_none (fail .lt _ (by decide) (by decide) (by decide))]
    exact salt_some ok
  | eq =>
    rw [salt_none (fail .le _ (by decide) (by decide) (by decide)),
      salt_none (fail .lt _ (by decide) (by decide) (by decide)),
      salt_none (fail .ne _ (by decide) (by decide) (by decide))]
    exact salt_some ok
  | ge =>
    rw [salt_none (fail .le _ (by decide) (by decide) (by decide)),
      salt_none (fail .lt _ (by decide) (by decide) (by decide)),
      salt_none (fail .ne _ (by decide) (by decide) (by decide)),
      salt_none (fail .eq _ (by decide) (by decide) (by decide))]
    exact salt_some ok
  | gt =>
    rw [salt_none (fail .le _ (by decide) (by decide) (by decide)),
      salt_none (fail .lt _ (by decide) (by decide) (by decide)),
      salt_none (fail .ne _ (by decide) (by decide) (by decide)),
      salt_none (fail .eq _ (by decide) (by decide) (by decide)),
      salt_none (fail .ge _ (by decide) (by decide) (by decide))]
    exact ok

theorem wfml_rpar (E : SmtEnv K) {n : ℕ} {st : Ctx × ℕ} {w r : List Char} (hw : Ws w) :
    wfml E n st (w ++ ')' :: r) = .ok (st, none) := by
  have h : ∀ (k : List Char) (op : String), wrln E k op n st (w ++ ')' :: r) = .ok (st, none) := by
    intro k op
    unfold wrln
    exact sbind_none (slit1_fail hw (by decide) (by decide))
  unfold wfml
  rw [salt_none (h _ _), salt_none (h _ _), salt_none (h _ _), salt_none (h _ _), salt_none (h _ _), h]

theorem wfml_nil (E : SmtEnv K) {n : ℕ} {st : Ctx × ℕ} {w : List Char} (hw : Ws w) :
    wfml E n st (w ++ []) = .ok (st, none) := by
  have h : ∀ (k : List Char) (op : String), wrln E k op n st (w ++ []) = .ok (st, none) := by
    intro k op
    unfold wrln
    apply sbind_none
    unfold slit stok
    beta_reduce
    rw [List.append_nil, skipWs_nil hw]
    rfl
  unfold wfml
  rw [salt_none (h _ _), salt_none (h _ _), salt_none (h _ _), salt_none (h _ _), salt_none (h _ _), h]

theorem wmany_gen (E : SmtEnv K) (o : ℕ) {s : List Char} {l : List Fm} (h : RelsText E.num s l)
    {tail : List Char} (htail : ∀ (n : ℕ) (st : Ctx × ℕ) (w : List Char), Ws w → wfml E n st (w ++ tail) = .ok (st, none)) :
    ∀ (n m : ℕ), s.length ≤ n → s.length < m → ∃ w, Ws w ∧ ∀ (st : SmtState) (k : ℕ) (as : List Atom) (c : Ctx),
      readFms E.quot (st.heap o).ctx l = .ok (as, c) →
      smany (wzoom o (wfml E n)) m (st, k) (s ++ tail) = .ok ((withCtx st o c, k + fmsActs l), some (as, w ++ tail)) := by
  induction h with
  | nil w hw =>
    intro n m _ hm
    obtain ⟨m, rfl⟩ : ∃ k, m = k + 1 := ⟨m - 1, by omega⟩
    refine ⟨w, hw, fun st k as c hr => ?_⟩
    cases hr
    unfold smany wzoom
    rw [htail n _ w hw]
    rfl
  | cons w s rest' f l hw hs hr ih =>
    intro n m hn hm
    obtain ⟨m, rfl⟩ : ∃ k, m = k + 1 := ⟨m - 1, by omega⟩
    simp only [List.length_append] at hn hm
    have hpos : 0 < s.length := by cases hs; simp
    have e : w ++ (s ++ rest') ++ tail = w ++ (s ++ (rest' ++ tail)) := by simp
    obtain ⟨w', hw', e'⟩ := ih n m (by omega) (by omega)
    refine ⟨w', hw', fun st k as c hr => ?_⟩
    rw [e]
    simp only [readFms, bind, Except.bind] at hr
    cases hf : readFm E.quot (st.heap o).ctx f with
    | error err => rw [hf] at hr; cases hr
    | ok r =>
      rw [hf] at hr
      simp only at hr
      cases hl : readFms E.quot r.2 l with
      | error err => rw [hl] at hr; cases hr
      | ok r' =>
        rw [hl] at hr
        cases hr
        have hz := wfml_text E hs n (by omega) (st.heap o).ctx r.2 k w (rest' ++ tail) r.1 hw hf
        have e'' := e' (withCtx st o r.2) (k + (f.lhs.acts + f.rhs.acts + 1)) r'.1 r'.2 (by rw [withCtx_heap]; exact hl)
        unfold smany
        simp only [wzoom, hz]
        have h0 : (({ st with heap := Function.update st.heap o { st.heap o with ctx := r.2 } } : SmtState),
          k + (f.lhs.acts + f.rhs.acts + 1)) = (withCtx st o r.2, k + (f.lhs.acts + f.rhs.acts + 1)) := rfl
        rw [h0, sbind_some e'', withCtx_with]
        show Except.ok ((withCtx st o r'.2, k + (f.lhs.acts + f.rhs.acts + 1) + fmsActs l), some (r.1 :: r'.1, w' ++ tail)) = _
        simp only [fmsActs, List.map_cons, List.sum_cons, Nat.add_assoc]

theorem wside_text (E : SmtEnv K) (o : ℕ) {s : List Char} {l : List Fm} (h : RelsText E.num s l)
    {c : Char} {kwd : List Char} (hc : isWs c = false) {w w₁ : List Char} (hw : Ws w) (hw₁ : Ws w₁) (n : ℕ)
    (hn : s.length < n) (st : SmtState) (k : ℕ) (rest : List Char) (as : List Atom) (d : Ctx)
    (hr : readFms E.quot (st.heap o).ctx l = .ok (as, d)) :
    wside E o (c :: kwd) n (st, k) (w ++ '(' :: (w₁ ++ (c :: kwd ++ (s ++ ')' :: rest)))) =
      .ok ((withCtx st o d, k + fmsActs l), some (as, rest)) := by
  obtain ⟨w', hw', e'⟩ := wmany_gen E o h (fun _ _ _ hw => wfml_rpar E (r := rest) hw) n n (by omega) hn
  unfold wside
  rw [sbind_some (slit1_ok hw (by decide)), sbind_some (slit_ok hw₁ rfl hc), sbind_some (e' st k as d hr),
    sbind_some (slit1_ok hw' (by decide))]
  rfl

/-- The exact number of actions for one sequent. -/
theorem wcmd_text (E : SmtEnv K) (o own : ℕ) {s : List Char} {q : FileSeq} (h : SequentText E.num s q) (n : ℕ)
    (hl : s.length ≤ n) (st st' : SmtState) (k : ℕ) (w rest : List Char) (hw : Ws w) (x : Unit × List Char)
    (hx : scmd E o own n st (w ++ (s ++ rest)) = .ok (st', some x)) :
    wcmd E o own n (st, k) (w ++ (s ++ rest)) = .ok ((st', k + (fmsActs q.ante + fmsActs q.succ + 3)), some x) := by
  rw [scmd_gen E o own h n hl st w rest hw] at hx
  obtain ⟨w₁, w₂, w₃, w₄, w₅, w₆, w₇, name, a, b, la, lb, h₁, h₂, h₃, h₄, h₅, h₆, h₇, hn, ha, hb⟩ := h
  simp only [List.length_cons, List.length_append] at hl
  have e : w ++ (('(' :: (w₁ ++ ("sequent".toList ++ (w₂ ++ '"' :: (name ++ '"' :: (w₃ ++ '(' :: (w₄ ++
        ("antecedent".toList ++ (a ++ ')' :: (w₅ ++ '(' :: (w₆ ++ ("succedent".toList ++ (b ++ ')' :: (w₇ ++
        [')'])))))))))))))) ++ rest) =
      w ++ '(' :: (w₁ ++ ("sequent".toList ++ (w₂ ++ '"' :: (name ++ '"' :: (w₃ ++ '(' :: (w₄ ++
        ('a' :: "ntecedent".toList ++ (a ++ ')' :: (w₅ ++ '(' :: (w₆ ++ ("succedent".toList ++ (b ++ ')' :: (w₇ ++
        ')' :: rest))))))))))))) := by
    simp only [List.append_assoc, List.cons_append, List.nil_append]
    rfl
  rw [e]
  cases hA : readFms E.quot (st.heap o).ctx la with
  | error e => rw [hA] at hx; cases hx
  | ok A =>
    rw [hA] at hx
    simp only at hx
    cases hB : readFms E.quot A.2 lb with
    | error e => rw [hB] at hx; cases hx
    | ok B =>
      rw [hB] at hx
      simp only at hx
      have e₁ := wside_text E o (c := 'a') (kwd := "ntecedent".toList) ha (by decide) h₃ h₄ n (by omega) st k
        (w₅ ++ '(' :: (w₆ ++ ("succedent".toList ++ (b ++ ')' :: (w₇ ++ ')' :: rest))))) A.1 A.2 hA
      have e₂ := wside_text E o (c := 's') (kwd := "uccedent".toList) hb (by decide) h₅ h₆ n (by omega)
        ({ withCtx st o A.2 with heap := Function.update (withCtx st o A.2).heap o { (withCtx st o A.2).heap o with ante := A.1 } })
        (k + fmsActs la + 1) (w₇ ++ ')' :: rest) B.1 B.2 (by simp only [Function.update_self, withCtx_heap]; exact hB)
      unfold wcmd
      rw [sbind_some (slit1_ok hw (by decide)),
        sbind_some (slit_ok (s := "sequent".toList) (c := 's') (s' := "equent".toList) h₁ rfl (by decide)),
        sbind_some (squoted_text h₂ hn (st, k))]
      refine (sbind_some e₁).trans ?_
      refine (sbind_some (a := ()) (r := w₅ ++ '(' :: (w₆ ++ ("succedent".toList ++ (b ++ ')' :: (w₇ ++ ')' :: rest))))) rfl).trans ?_
      refine (sbind_some (a := ()) (r := w₅ ++ '(' :: (w₆ ++ ("succedent".toList ++ (b ++ ')' :: (w₇ ++ ')' :: rest))))) rfl).trans ?_
      refine (sbind_some e₂).trans ?_
      refine (sbind_some (a := ()) (r := w₇ ++ ')' :: rest) rfl).trans ?_
      refine (sbind_some (a := ()) (r := w₇ ++ ')' :: rest) rfl).trans ?_
      rw [sbind_some (slit1_ok h₇ (by decide))]
      refine (sbind_some (a := ()) (r := rest) rfl).trans ?_
      simp only [withCtx, Function.update_self, Function.update_idem]
      unfold uncounted
      simp only
      rw [hx]
      simp only
      congr 3
      ring

/-- The exact number of actions for a file. -/
theorem wcmds_text (E : SmtEnv K) (o : ℕ) {text : List Char} {l : List FileSeq} (h : FileText E.num text l) :
    ∀ n m, text.length ≤ n → text.length < m → ∀ (st st' : SmtState) (k k' : ℕ) (r : List Char),
      wcmds E o o n m (st, k) text = .ok ((st', k'), r) → skipWs r = [] → k' = k + seqActs l := by
  induction h with
  | nil w hw =>
    intro n m _ hm st st' k k' r hk _
    obtain ⟨m, rfl⟩ : ∃ j, m = j + 1 := ⟨m - 1, by omega⟩
    have h0 : wcmd E o o n (st, k) w = .ok ((st, k), none) := by
      unfold wcmd
      apply sbind_none
      unfold slit stok
      beta_reduce
      rw [skipWs_nil hw]
      rfl
    unfold wcmds at hk
    rw [h0] at hk
    cases hk
    rfl
  | cons w s rest q l hw hs hr ih =>
    intro n m hn hm st st' k k' r hk hsk
    obtain ⟨m, rfl⟩ : ∃ j, m = j + 1 := ⟨m - 1, by omega⟩
    obtain ⟨y, hy⟩ := seqText_head hs
    have hpos : 0 < s.length := by rw [hy]; simp
    simp only [List.length_append] at hn hm
    have e := scmd_text E o hs n (by omega) st w rest hw
    have ec := counted_cmd E o o n st k (w ++ (s ++ rest))
    cases hq : seqRun E (st.heap o) st.lines st.runs q with
    | error err =>
      rw [hq] at e
      simp only at e
      rw [e] at ec
      exfalso
      unfold wcmds at hk
      cases hw' : wcmd E o o n (st, k) (w ++ (s ++ rest)) with
      | ok x => rw [hw'] at ec; cases ec
      | error e' =>
        rw [hw'] at hk
        simp only at hk
        by_cases hi : e' = .act (.loop .indexError)
        · rw [if_pos hi] at hk
          cases hk
          rw [hy, List.cons_append, skipWs_wc hw (by decide)] at hsk
          cases hsk
        · rw [if_neg hi] at hk
          cases hk
    | ok z =>
      rw [hq] at e
      have e' := wcmd_text E o o hs n (by omega) st _ k w rest hw _ e
      unfold wcmds at hk
      rw [e'] at hk
      have := ih n m (by omega) (by omega) _ _ _ _ _ hk hsk
      rw [this]
      simp only [seqActs, List.map_cons, List.sum_cons, Nat.add_assoc]

/-- **C126** (exact number): reading a file takes three parse actions for each sequent and those for its formulas: one for
each number, name, operation and relation, but everything below a unary minus is read twice. -/
theorem C126_actions (E : SmtEnv K) (o : ℕ) (text : List Char) (l : List FileSeq) (h : FileText E.num text l)
    (st st' : SmtState) (k : ℕ) (hk : wparseCmds E o o text st = .ok (st', k)) : k = seqActs l := by
  unfold wparseCmds at hk
  cases hw : wcmds E o o (text.length + 1) (text.length + 1) (st, 0) text with
  | error e => rw [hw] at hk; cases hk
  | ok x =>
    rw [hw] at hk
    simp only at hk
    by_cases hs : skipWs x.2 = []
    · rw [if_pos hs] at hk
      have hx := Except.ok.inj hk
      have := wcmds_text E o h (text.length + 1) (text.length + 1) (by omega) (by omega) st st' 0 k x.2 (by rw [hw, ← hx]) hs
      simpa using this
    · rw [if_neg hs] at hk
      cases hk

/-- **C126** (exact number), for formulas that are read by themselves. -/
theorem C126_formulas (E : SmtEnv K) (o : ℕ) (text : List Char) (l : List Fm) (h : RelsText E.num text l)
    (st : SmtState) (as : List Atom) (c : Ctx) (hr : readFms E.quot (st.heap o).ctx l = .ok (as, c)) :
    ∃ st', wfmlsTokenList E o text st = .ok (as, st', fmsActs l) := by
  obtain ⟨w, hw, e⟩ := wmany_gen E o h (tail := []) (fun _ _ _ hw => wfml_nil E hw) (text.length + 1) (text.length + 1)
    (by omega) (by omega)
  have e' := e st 0 as c hr
  rw [List.append_nil, List.append_nil] at e'
  unfold wfmlsTokenList
  rw [e']
  simp only [skipWs_nil hw, if_true]
  exact ⟨withCtx st o c, by simp⟩

/-! ### Bounds -/

/-- How deep unary minuses are nested in a term. -/
def Tm.minuses : Tm → ℕ
  | .num _ | .word _ => 0
  | .add a b | .mul a b | .sub a b | .div a b => max a.minuses b.minuses
  | .neg a => a.minuses + 1

theorem BinOp.minuses (o : BinOp) (a b : Tm) : (o.tm a b).minuses = max a.minuses b.minuses := by cases o <;> rfl

theorem acts_le {num : Bool → List Char → List Char → ℚ} {s : List Char} {t : Tm} (h : TermText num s t) :
    ∀ d, t.minuses ≤ d → t.acts ≤ s.length * 2 ^ d := by
  induction h with
  | num neg ds es h h' =>
    intro d _
    have : 0 < 2 ^ d := Nat.two_pow_pos d
    simp only [Tm.acts, List.length_append, List.length_cons]
    exact Nat.mul_pos (by omega) this
  | word s h =>
    intro d _
    exact Nat.mul_pos (List.length_pos_iff.2 h.1) (Nat.two_pow_pos d)
  | bin o w₁ w₂ w₃ w₄ a b ta tb h₁ h₂ h₃ h₄ ha hb hs iha ihb =>
    intro d hd
    rw [BinOp.minuses] at hd
    have ea := iha d ((le_max_left _ _).trans hd)
    have eb := ihb d ((le_max_right _ _).trans hd)
    have hp : 1 ≤ 2 ^ d := Nat.one_le_two_pow
    rw [BinOp.acts]
    calc ta.acts + tb.acts + 1 ≤ (a.length + b.length + 1) * 2 ^ d := by rw [Nat.add_mul, Nat.add_mul]; omega
      _ ≤ _ := Nat.mul_le_mul_right _ (by simp only [List.length_append, List.length_cons]; omega)
  | neg w₁ w₂ w₄ a ta h₁ h₂ h₄ ha iha =>
    intro d hd
    obtain ⟨d, rfl⟩ : ∃ e, d = e + 1 := ⟨d - 1, by simp only [Tm.minuses] at hd; omega⟩
    have ea := iha d (by simp only [Tm.minuses] at hd; omega)
    have hp : 1 ≤ 2 ^ d := Nat.one_le_two_pow
    rw [Tm.acts]
    calc 2 * ta.acts + 1 ≤ (a.length + 1) * 2 ^ (d + 1) := by rw [Nat.add_mul, Nat.pow_succ, ← Nat.mul_assoc]; omega
      _ ≤ _ := Nat.mul_le_mul_right _ (by simp only [List.length_append, List.length_cons]; omega)

theorem fmsActs_le {num : Bool → List Char → List Char → ℚ} {s : List Char} {l : List Fm} (h : RelsText num s l) (d : ℕ)
    (hd : ∀ f ∈ l, f.lhs.minuses ≤ d ∧ f.rhs.minuses ≤ d) : fmsActs l ≤ s.length * 2 ^ d := by
  induction h with
  | nil w hw => exact Nat.zero_le _
  | cons w s rest f l hw hs hr ih =>
    have e := ih fun g hg => hd g (List.mem_cons_of_mem _ hg)
    obtain ⟨w₁, w₂, w₃, w₄, a, b, k, ta, tb, h₁, h₂, h₃, h₄, ha, hb, hk, hs'⟩ := hs
    obtain ⟨da, db⟩ := hd _ List.mem_cons_self
    have ea := acts_le ha d da
    have eb := acts_le hb d db
    have hp : 1 ≤ 2 ^ d := Nat.one_le_two_pow
    have e0 : fmsActs (⟨k, ta, tb⟩ :: l) = ta.acts + tb.acts + 1 + fmsActs l := rfl
    rw [e0]
    calc ta.acts + tb.acts + 1 + fmsActs l ≤ (a.length + b.length + 1 + rest.length) * 2 ^ d := by
          rw [Nat.add_mul, Nat.add_mul, Nat.add_mul]; omega
      _ ≤ _ := Nat.mul_le_mul_right _ (by simp only [List.length_append, List.length_cons]; omega)

theorem seqActs_le {num : Bool → List Char → List Char → ℚ} {s : List Char} {l : List FileSeq} (h : FileText num s l)
    (d : ℕ) (hd : ∀ q ∈ l, ∀ f ∈ q.ante ++ q.succ, f.lhs.minuses ≤ d ∧ f.rhs.minuses ≤ d) :
    seqActs l ≤ s.length * 2 ^ d := by
  induction h with
  | nil w hw => exact Nat.zero_le _
  | cons w s rest q l hw hs hr ih =>
    have e := ih fun g hg => hd g (List.mem_cons_of_mem _ hg)
    have hq := hd _ List.mem_cons_self
    obtain ⟨w₁, w₂, w₃, w₄, w₅, w₆, w₇, name, a, b, la, lb, h₁, h₂, h₃, h₄, h₅, h₆, h₇, hn, ha, hb⟩ := hs
    have ea := fmsActs_le ha d fun f hf => hq f (List.mem_append_left _ hf)
    have eb := fmsActs_le hb d fun f hf => hq f (List.mem_append_right _ hf)
    have hp : 1 ≤ 2 ^ d := Nat.one_le_two_pow
    have e0 : seqActs (⟨name, la, lb⟩ :: l) = fmsActs la + fmsActs lb + 3 + seqActs l := rfl
    rw [e0]
    calc fmsActs la + fmsActs lb + 3 + seqActs l ≤ (a.length + b.length + 3 + rest.length) * 2 ^ d := by
          rw [Nat.add_mul, Nat.add_mul, Nat.add_mul]; omega
      _ ≤ _ := Nat.mul_le_mul_right _ (by simp only [List.length_append, List.length_cons]; omega)

/-- **C126**, what holds: if unary minuses are nested at most `d` deep, reading a file takes at most `n · 2ᵈ` parse
actions, `n` being the length of the file; without unary minus at most as many as there are characters. Missing: a bound
independent of `d` (`C126_violated`); texts that are not files. -/
theorem C126_partial (E : SmtEnv K) (o : ℕ) (text : List Char) (l : List FileSeq) (h : FileText E.num text l) (d : ℕ)
    (hd : ∀ q ∈ l, ∀ f ∈ q.ante ++ q.succ, f.lhs.minuses ≤ d ∧ f.rhs.minuses ≤ d) (st st' : SmtState) (k : ℕ)
    (hk : wparseCmds E o o text st = .ok (st', k)) : k ≤ text.length * 2 ^ d :=
  (C126_actions E o text l h st st' k hk).trans_le (seqActs_le h d hd)

/-- **C126**, every call that returns: whatever the text is, if reading it returns, it is the text of exactly one list of
sequents, and the number of parse actions is the one of that list. -/
theorem C126_every (E : SmtEnv K) (o : ℕ) (text : List Char) (st st' : SmtState) (k : ℕ)
    (hk : wparseCmds E o o text st = .ok (st', k)) :
    ∃ l : List FileSeq, FileText E.num text l ∧ (∀ l', FileText E.num text l' → l' = l) ∧ k = seqActs l := by
  have hp : parseCmds E o o text st = .ok st' := by
    rw [← (C126_counted E o o text st).1, hk]
    rfl
  unfold parseCmds at hp
  cases hs : scmds E o o (text.length + 1) (text.length + 1) st text with
  | error e => rw [hs] at hp; cases hp
  | ok x =>
    obtain ⟨s', r⟩ := x
    rw [hs] at hp
    by_cases hr : skipWs r = []
    · obtain ⟨l, hl⟩ := scmds_inv E o o _ _ _ _ _ _ hs hr
      exact ⟨l, hl, fun l' hl' => C74_unique E.num text l' l hl' hl, C126_actions E o text l hl st st' k hk⟩
    · simp only [if_neg hr] at hp
      cases hp

/-! ### Nested minuses -/

/-- `(-(-( … x)))` -/
def minusText : ℕ → List Char
  | 0 => ['x']
  | n + 1 => '(' :: '-' :: (minusText n ++ [')'])

/-- the term -/
def minusTm : ℕ → Tm
  | 0 => .word "x"
  | n + 1 => .neg (minusTm n)

theorem nil_ws' : Ws [] := by intro c hc; cases hc

theorem sp_ws : Ws [' '] := by
  intro c hc
  rw [List.mem_singleton.1 hc]
  exact Or.inl rfl

theorem minusText_text (num : Bool → List Char → List Char → ℚ) (n : ℕ) : TermText num (minusText n) (minusTm n) := by
  induction n with
  | zero => exact .word _ word_x
  | succ n ih => exact .neg [] [] [] _ _ nil_ws' nil_ws' nil_ws' ih

theorem minusText_length (n : ℕ) : (minusText n).length = 3 * n + 1 := by
  induction n with
  | zero => rfl
  | succ n ih => rw [minusText]; simp [ih]; ring

theorem minusTm_acts (n : ℕ) : 2 ^ n ≤ (minusTm n).acts := by
  induction n with
  | zero => rfl
  | succ n ih => rw [minusTm, Tm.acts, pow_succ]; omega

/-- `(> (-(-( … x))) x)` -/
def minusFml (n : ℕ) : List Char := '(' :: '>' :: ' ' :: (minusText n ++ [' ', 'x', ')'])

theorem minusFml_text (num : Bool → List Char → List Char → ℚ) (n : ℕ) :
    RelText num (minusFml n) ⟨.gt, minusTm n, .word "x"⟩ := by
  have h := RelText.mk (num := num) [] [' '] [' '] [] (minusText n) ['x'] .gt (minusTm n) (.word "x") nil_ws' sp_ws sp_ws
    nil_ws' (minusText_text num n) (.word _ word_x) (by
      intro c r e
      cases e
      unfold KwChar
      decide) (by
      have hsp : ¬ WordChar ' ' := by unfold WordChar; decide
      cases n with
      | zero => intro c r e; cases e; exact hsp
      | succ n => trivial)
  exact h

/-- A file with one sequent whose only formula is this one. -/
def minusFile (n : ℕ) : List Char :=
  '(' :: ("sequent".toList ++ ([' ', '"', '"', ' ', '('] ++ ("antecedent".toList ++ ([')', ' ', '('] ++
    ("succedent".toList ++ (' ' :: (minusFml n ++ [')', ')'])))))))

/-- its contents -/
def minusSeq (n : ℕ) : FileSeq := ⟨[], [], [⟨.gt, minusTm n, .word "x"⟩]⟩

theorem minusFile_text (num : Bool → List Char → List Char → ℚ) (n : ℕ) : FileText num (minusFile n) [minusSeq n] := by
  have h := SequentText.mk (num := num) [] [' '] [' '] [] [' '] [] [] [] [] ([' '] ++ (minusFml n ++ []))
    [] [⟨.gt, minusTm n, .word "x"⟩] nil_ws' sp_ws sp_ws nil_ws' sp_ws nil_ws' nil_ws' (by simp) (.nil [] nil_ws')
    (.cons _ _ _ _ _ sp_ws (minusFml_text num n) (.nil [] nil_ws'))
  have h' := FileText.cons [] _ [] _ [] nil_ws' h (.nil [] nil_ws')
  unfold minusFile minusSeq
  generalize "sequent".toList = s₁ at h' ⊢
  generalize "antecedent".toList = s₂ at h' ⊢
  generalize "succedent".toList = s₃ at h' ⊢
  simpa only [List.nil_append, List.append_nil, List.cons_append, List.append_assoc] using h'

theorem minus_big (c d b : ℕ) : ∃ n, c * (3 * n + b) ^ d + c < 2 ^ n := by
  have h := tendsto_pow_const_div_const_pow_of_one_lt d (r := (2 : ℝ)) (by norm_num)
  have h0 : (0 : ℝ) < 1 / ((c + 1 : ℕ) * (3 + b + 1) ^ d * 2 : ℝ) := by positivity
  obtain ⟨n, hn1, hn⟩ := ((h.eventually (gt_mem_nhds h0)).and (Filter.eventually_ge_atTop 1)).exists
  refine ⟨n, ?_⟩
  have hpos : (0 : ℝ) < 2 ^ n := by positivity
  rw [div_lt_iff₀ hpos, div_mul_eq_mul_div, lt_div_iff₀ (by positivity), one_mul] at hn1
  have hn' : (1 : ℝ) ≤ n := by exact_mod_cast hn
  have hb : (0 : ℝ) ≤ b := by positivity
  have h1 : (3 * n + b : ℝ) ^ d ≤ (n : ℝ) ^ d * (3 + b + 1) ^ d := by
    rw [← mul_pow]
    apply pow_le_pow_left₀ (by positivity)
    nlinarith
  have h2 : (1 : ℝ) ≤ (n : ℝ) ^ d * (3 + b + 1) ^ d := by
    have a1 : (1 : ℝ) ≤ (n : ℝ) ^ d := one_le_pow₀ hn'
    have a2 : (1 : ℝ) ≤ (3 + b + 1 : ℝ) ^ d := one_le_pow₀ (by linarith)
    nlinarith
  have h3 : (c * (3 * n + b) ^ d + c : ℝ) < 2 ^ n := by
    have hc : (0 : ℝ) ≤ c := by positivity
    push_cast at hn1
    have e1 := mul_le_mul_of_nonneg_left h1 hc
    have e2 := mul_le_mul_of_nonneg_left h2 hc
    nlinarith
  exact_mod_cast h3

theorem minusTm_read (quot : MPoly → MPoly → Option MPoly) (n : ℕ) (c : Ctx) :
    ∃ p c', readTm quot c (minusTm n) = .ok (p, c') := by
  induction n generalizing c with
  | zero => exact ⟨_, _, rfl⟩
  | succ n ih =>
    obtain ⟨p, c', h⟩ := ih c
    refine ⟨(MPoly.const 0).sub p, c', ?_⟩
    simp only [minusTm, readTm, h, bind, Except.bind]

theorem minusFms_read (quot : MPoly → MPoly → Option MPoly) (n : ℕ) (c : Ctx) :
    ∃ a c', readFms quot c [⟨.gt, minusTm n, .word "x"⟩] = .ok ([a], c') := by
  obtain ⟨p, c', h⟩ := minusTm_read quot n c
  refine ⟨⟨p.sub (.var (c'.getVar "x").1), .gt, (p.sub (.var (c'.getVar "x").1)).vars⟩, (c'.getVar "x").2, ?_⟩
  simp only [readFms, readFm, h, readTm, bind, Except.bind]
  rfl

/-- **C126** is violated: the number of parse actions is not bounded by a polynomial in the length of the file. For any
polynomial there is a file with one sequent, of one formula, such that every call that reads it performs more parse
actions; and the call does return, for instance when the sample points show no counterexample. -/
theorem C126_violated (c d : ℕ) : ∃ text : List Char,
    (∀ (E : SmtEnv K) (st st' : SmtState) (k : ℕ), wparseCmds E 0 0 text st = .ok (st', k) → c * text.length ^ d + c < k) ∧
    ∀ E : SmtEnv K, (∀ n s, (E.core 0).samples n s = .ok []) →
      ∃ st', parseCmds E 0 0 text (SmtReader.new false []).2 = .ok st' := by
  obtain ⟨n, hn⟩ := minus_big c d 45
  have hlen : (minusFile n).length = 3 * n + 45 := by
    have h1 : "sequent".toList.length = 7 := by decide
    have h2 : "antecedent".toList.length = 10 := by decide
    have h3 : "succedent".toList.length = 9 := by decide
    simp only [minusFile, minusFml, List.length_cons, List.length_append, minusText_length, h1, h2, h3, List.length_nil]
    ring
  refine ⟨minusFile n, fun E st st' k hk => ?_, fun E hE => ?_⟩
  · have h := C126_actions E 0 _ _ (minusFile_text E.num n) st st' k hk
    have := minusTm_acts n
    rw [h, hlen]
    simp only [seqActs, fmsActs, minusSeq, List.map_cons, List.map_nil, List.sum_cons, List.sum_nil]
    omega
  · obtain ⟨a, c', h⟩ := minusFms_read E.quot n Ctx.init
    rw [parseCmds_text E 0 (minusFile_text E.num n)]
    have hr : ∃ x, seqRun E (Obj.new false) [] 0 (minusSeq n) = .ok x := by
      unfold seqRun minusSeq
      have h0 : readFms E.quot (Obj.new false).ctx [] = .ok ([], Ctx.init) := rfl
      simp only [h0, h]
      simp [seqState, iCheck, check, round, hE, allBads, liftG, bind, Except.bind, Obj.new]
    obtain ⟨x, hx⟩ := hr
    refine ⟨place (SmtReader.new false []).2 0 x, ?_⟩
    have : seqsRun E ((SmtReader.new false []).2.heap 0, (SmtReader.new false []).2.lines, (SmtReader.new false []).2.runs)
        [minusSeq n] = .ok x := by
      unfold seqsRun
      have hx' : seqRun E ((SmtReader.new false []).2.heap 0) (SmtReader.new false []).2.lines
        (SmtReader.new false []).2.runs (minusSeq n) = .ok x := hx
      simp only [hx']
      rfl
    rw [this]

/-- **C126** is violated also by `fmlsTokenList`, for every environment and state. -/
theorem C126_formulas_violated (c d : ℕ) : ∃ text : List Char, ∀ (E : SmtEnv K) (o : ℕ) (st : SmtState),
    ∃ as st' k, wfmlsTokenList E o text st = .ok (as, st', k) ∧ c * text.length ^ d + c < k := by
  obtain ⟨n, hn⟩ := minus_big c d 7
  refine ⟨minusFml n, fun E o st => ?_⟩
  obtain ⟨a, c', h⟩ := minusFms_read E.quot n (st.heap o).ctx
  have ht : RelsText E.num (minusFml n) [⟨.gt, minusTm n, .word "x"⟩] := by
    have := RelsText.cons [] _ [] _ [] nil_ws' (minusFml_text E.num n) (.nil [] nil_ws')
    simpa using this
  obtain ⟨st', h'⟩ := C126_formulas E o _ _ ht st [a] c' h
  refine ⟨_, st', _, h', ?_⟩
  have hlen : (minusFml n).length = 3 * n + 7 := by
    simp [minusFml, minusText_length]
  have := minusTm_acts n
  rw [hlen]
  simp only [fmsActs, List.map_cons, List.map_nil, List.sum_cons, List.sum_nil]
  omega

/-- The file of `C126_violated` with two minuses takes 12 parse actions. -/
example (E : SmtEnv K) (st st' : SmtState) (k : ℕ)
    (hk : wparseCmds E 0 0 "(sequent \"\" (antecedent) (succedent (> (-(-x)) x)))".toList st = .ok (st', k)) : k = 12 :=
  C126_actions E 0 _ _ (minusFile_text E.num 2) st st' k hk

/-- The bound of `C126_partial` for it. -/
example (E : SmtEnv K) (st st' : SmtState) (k : ℕ)
    (hk : wparseCmds E 0 0 "(sequent \"\" (antecedent) (succedent (> (-(-x)) x)))".toList st = .ok (st', k)) : k ≤ 204 := by
  have := C126_partial E 0 _ _ (minusFile_text E.num 2) 2 (by simp [minusSeq, minusTm, Tm.minuses]) st st' k hk
  exact this

end Verif.Grf
