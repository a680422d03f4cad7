import Verif.Grf.PropsRenaming
import Verif.Grf.PropsNames
import Verif.Grf.PropsFileRealOne

/-!
# C132: the sequents of a file before the last one

All sequents of a file are read in one context (`GRF/smt2.py:60-81`, `GRF/smt2.py:418-425`), so that the generators that
stand for the names in a sequent depend on the sequents before it.
-/

set_option linter.unusedSectionVars false

namespace Verif.Grf

/-- The context in which the given names have been read, the last one first (`GRF/smt2.py:40-81`). -/
def ctxOf : List String → Ctx
  | [] => Ctx.init
  | s :: D => ⟨max 1 (D.length + 1), (s, D.length) :: (ctxOf D).varMap⟩

theorem ctxOf_length : ∀ D : List String, (ctxOf D).varMap.length = D.length
  | [] => rfl
  | s :: D => by simp [ctxOf, ctxOf_length D]

theorem ctxOf_gens : ∀ D : List String, (ctxOf D).gens = max 1 D.length
  | [] => rfl
  | _ :: _ => rfl

theorem ctxOf_lookup (s : String) : ∀ D : List String, (ctxOf D).varMap.lookup s = none ↔ s ∉ D
  | [] => by simp [ctxOf, Ctx.init]
  | t :: D => by
    have ih := ctxOf_lookup s D
    simp only [ctxOf, List.lookup_cons, List.mem_cons, not_or]
    by_cases e : s = t
    · simp [e]
    · rw [beq_false_of_ne e]
      simp only [ih, e, not_false_eq_true, true_and]

theorem getVar_ctxOf (s : String) (D : List String) : ((ctxOf D).getVar s).2 = ctxOf (if s ∈ D then D else s :: D) := by
  by_cases h : s ∈ D
  · rw [if_pos h]
    have : (ctxOf D).varMap.lookup s ≠ none := fun e => (ctxOf_lookup s D).1 e h
    unfold Ctx.getVar
    cases e : (ctxOf D).varMap.lookup s with
    | none => exact absurd e this
    | some i => rfl
  · rw [if_neg h]
    unfold Ctx.getVar
    rw [(ctxOf_lookup s D).2 h]
    simp only [ctxOf_length, ctxOf_gens, ctxOf]
    cases D with
    | nil => rfl
    | cons t D =>
      have h1 : max 1 (t :: D).length = D.length + 1 := by simp
      have h2 : max 1 ((t :: D).length + 1) = D.length + 2 := by simp
      rw [h1, h2, if_neg (by simp)]
      simp

/-- the names with further ones, the last one first, each at its first occurrence -/
def seen (D : List String) (ws : List String) : List String := ws.foldl (fun D s => if s ∈ D then D else s :: D) D

theorem seen_append (D u v : List String) : seen D (u ++ v) = seen (seen D u) v := List.foldl_append

/-- The names in order of first occurrence determine the context. -/
theorem seen_eq (ws : List String) : seen [] ws = ws.reverse.dedup := by
  induction ws using List.reverseRecOn with
  | nil => rfl
  | append_singleton ws s ih =>
    rw [seen_append, ih, List.reverse_append, List.reverse_singleton, List.singleton_append]
    by_cases h : s ∈ ws.reverse
    · rw [List.dedup_cons_of_mem h]
      simp only [seen, List.foldl_cons, List.foldl_nil]
      rw [if_pos (List.mem_dedup.2 h)]
    · rw [List.dedup_cons_of_notMem h]
      simp only [seen, List.foldl_cons, List.foldl_nil]
      rw [if_neg (fun e => h (List.mem_dedup.1 e))]

/-- The step from one context to the next is that of the names. -/
def Steps {α : Type} (D ws : List String) (r : Except GErr (α × Ctx)) : Prop := ∀ x, r = .ok x → x.2 = ctxOf (seen D ws)

theorem Steps.bind {α β : Type} {D u v : List String} {r : Except GErr (α × Ctx)} {f : α × Ctx → Except GErr (β × Ctx)}
    (h : Steps D u r) (hf : ∀ x : α × Ctx, x.2 = ctxOf (seen D u) → Steps (seen D u) v (f x)) : Steps D (u ++ v) (r >>= f) := by
  intro y hy
  cases hr : r with
  | error e => rw [hr] at hy; cases hy
  | ok x =>
    rw [hr] at hy
    rw [seen_append]
    exact hf x (h x hr) y hy

theorem Steps.pure {α : Type} {D : List String} {a : α} {c : Ctx} (h : c = ctxOf D) :
    Steps D [] (.ok (a, c) : Except GErr (α × Ctx)) := by
  intro x hx; cases hx; exact h

theorem readTm_steps (quot : MPoly → MPoly → Option MPoly) (t : Tm) : ∀ D : List String,
    Steps D t.words (readTm quot (ctxOf D) t) := by
  induction t with
  | num q => intro D; exact Steps.pure rfl
  | word s =>
    intro D x hx
    simp only [readTm] at hx
    cases hx
    exact getVar_ctxOf s D
  | neg a iha =>
    intro D
    simp only [readTm, Tm.words]
    have := (iha D).bind (v := []) (f := fun r => .ok ((MPoly.const 0).sub r.1, r.2)) fun x hx => Steps.pure hx
    rwa [List.append_nil] at this
  | add a b iha ihb | mul a b iha ihb | sub a b iha ihb =>
    intro D
    simp only [readTm, Tm.words]
    refine (iha D).bind fun x hx => ?_
    rw [hx]
    rw [← List.append_nil b.words]
    exact (ihb (seen D a.words)).bind fun y hy => Steps.pure hy
  | div a b iha ihb =>
    intro D
    simp only [readTm, Tm.words]
    refine (iha D).bind fun x hx => ?_
    rw [hx]
    rw [← List.append_nil b.words]
    refine (ihb (seen D a.words)).bind fun y hy => ?_
    cases quot x.1 y.1 with
    | none => intro z hz; cases hz
    | some q => exact Steps.pure hy

theorem readFms_steps (quot : MPoly → MPoly → Option MPoly) : ∀ (l : List Fm) (D : List String),
    Steps D (l.flatMap fun f => f.lhs.words ++ f.rhs.words) (readFms quot (ctxOf D) l)
  | [], D => Steps.pure rfl
  | f :: l, D => by
    simp only [readFms, List.flatMap_cons]
    refine Steps.bind ?_ fun x hx => ?_
    · simp only [readFm]
      refine (readTm_steps quot f.lhs D).bind fun x hx => ?_
      rw [hx, ← List.append_nil f.rhs.words]
      refine (readTm_steps quot f.rhs _).bind fun y hy => ?_
      simp only [bind, Except.bind]
      cases mkAtom x.1 f.op.toString y.1 with
      | error e => intro z hz; cases hz
      | ok a => exact Steps.pure hy
    · rw [hx, ← List.append_nil (l.flatMap _)]
      exact (readFms_steps quot l _).bind fun y hy => Steps.pure hy

variable {K : Type} [Field K] [LinearOrder K] [IsStrictOrderedRing K]

/-- The context after a sequent, and the number of runs. -/
theorem seqRun_seen {E : SmtEnv K} {o : Obj} {lines : List (List Char)} {runs : ℕ} {q : FileSeq} {D : List String}
    (ho : o.ctx = ctxOf D) {x : Obj × List (List Char) × ℕ} (h : seqRun E o lines runs q = .ok x) :
    x.1.ctx = ctxOf (seen D q.names) ∧ x.2.2 = runs + 1 ∧ x.1.interactive = o.interactive := by
  unfold seqRun at h
  rw [ho] at h
  have hA := readFms_steps E.quot q.ante D
  split at h
  · cases h
  · next A hrA =>
    have hA' := hA A hrA
    have hB := readFms_steps E.quot q.succ (seen D (q.ante.flatMap fun f => f.lhs.words ++ f.rhs.words))
    rw [← hA'] at hB
    split at h
    · cases h
    · next B hrB =>
      split at h
      · cases h
      · split at h
        · cases h
        · cases h
          refine ⟨?_, rfl, rfl⟩
          rw [hB B hrB, ← seen_append, ← List.flatMap_append]
          rfl

theorem seqsRun_seen {E : SmtEnv K} : ∀ (l : List FileSeq) (x y : Obj × List (List Char) × ℕ) (D : List String),
    x.1.ctx = ctxOf D → seqsRun E x l = .ok y →
    y.1.ctx = ctxOf (seen D (l.flatMap FileSeq.names)) ∧ y.2.2 = x.2.2 + l.length ∧ y.1.interactive = x.1.interactive
  | [], x, y, D, hx, h => by cases h; exact ⟨hx, rfl, rfl⟩
  | q :: l, x, y, D, hx, h => by
    simp only [seqsRun] at h
    split at h
    · cases h
    · next z hz =>
      obtain ⟨h1, h2, h3⟩ := seqRun_seen hx hz
      obtain ⟨k1, k2, k3⟩ := seqsRun_seen l z y _ h1 h
      rw [List.flatMap_cons, seen_append]
      exact ⟨k1, by rw [k2, h2, List.length_cons]; omega, by rw [k3, h3]⟩

/-- What a sequent does without interaction depends on the context, the random choices and the sequent. -/
theorem seqRun_alike {E : SmtEnv K} {o o' : Obj} {lines lines' : List (List Char)} {runs runs' : ℕ} {q : FileSeq}
    (hc : o.ctx = o'.ctx) (hi : o.interactive = false) (hi' : o'.interactive = false) (hr : E.core runs = E.core runs')
    {x x' : Obj × List (List Char) × ℕ} (h : seqRun E o lines runs q = .ok x) (h' : seqRun E o' lines' runs' q = .ok x') :
    x.1 = x'.1 := by
  unfold seqRun at h h'
  rw [← hc, ← hr, hi'] at h'
  rw [hi] at h
  cases hA : readFms E.quot o.ctx q.ante with
  | error e => rw [hA] at h; cases h
  | ok A =>
    rw [hA] at h h'
    simp only at h h'
    cases hB : readFms E.quot A.2 q.succ with
    | error e => rw [hB] at h; cases h
    | ok B =>
      rw [hB] at h h'
      simp only at h h'
      cases hs : seqState A.1 B.1 with
      | error e => rw [hs] at h; cases h
      | ok s =>
        rw [hs] at h h'
        simp only at h h'
        unfold iCheck at h h'
        simp only [bind, Except.bind] at h h'
        cases hk : check (E.core runs) (s.hyps.length + 1) 0 s with
        | error e => rw [hk] at h; cases h
        | ok r =>
          rw [hk] at h h'
          simp only [liftG] at h h'
          cases h
          cases h'
          rfl

/-- **C132**, partial: let two files end with the same sequent, and let the names in the sequents before it be the same ones, in
the order of their first occurrences. If `grf_on_file` returns for both, and the random choices in the last run are the same,
then it returns the same, and writes the same output. Missing: other names in the sequents before, see `C132_violated`. -/
theorem C132_partial (E : SmtEnv K) (out : Bool) (lines lines' : List (List Char)) (text text' : List Char)
    (l l' : List FileSeq) (q : FileSeq) (h : FileText E.num text (l ++ [q])) (h' : FileText E.num text' (l' ++ [q]))
    (hn : (l.flatMap FileSeq.names).reverse.dedup = (l'.flatMap FileSeq.names).reverse.dedup)
    (hr : E.core l.length = E.core l'.length) (o o' : SmtOut) (ho : grfOnFile E false out lines text = .ok o)
    (ho' : grfOnFile E false out lines' text' = .ok o') : o = o' := by
  rw [C74_reading E false out lines text _ h] at ho
  rw [C74_reading E false out lines' text' _ h'] at ho'
  split at ho
  · cases ho
  · next x hx =>
    split at ho'
    · cases ho'
    · next x' hx' =>
      obtain ⟨z, hz, hq⟩ := seqsRun_append hx
      obtain ⟨z', hz', hq'⟩ := seqsRun_append hx'
      obtain ⟨a1, a2, a3⟩ := seqsRun_seen l _ z [] rfl hz
      obtain ⟨b1, b2, b3⟩ := seqsRun_seen l' _ z' [] rfl hz'
      rw [seen_eq] at a1 b1
      simp only [Nat.zero_add] at a2 b2
      have e : x.1 = x'.1 := seqRun_alike (by rw [a1, b1, hn]) a3 b3 (by rw [a2, b2]; exact hr) hq hq'
      rw [← e] at ho'
      rw [ho] at ho'
      exact Except.ok.inj ho'

/-! ### The violation -/

/-- Everything may be followed by a blank. -/
theorem ends_blank (t : Tm) (r : List Char) : Ends t (' ' :: r) := by
  cases t <;> simp only [Ends]
  · intro c r' h; cases h; decide
  · intro c r' h; cases h; rw [← isWord_iff]; decide

/-- the text of an operation -/
def opText (o : BinOp) (a b : List Char) : List Char :=
  '(' :: ([] ++ o.sym :: ([' '] ++ (a ++ ([' '] ++ (b ++ ([] ++ [')']))))))

theorem opText_ok {num : Bool → List Char → List Char → ℚ} (o : BinOp) {a b : List Char} {ta tb : Tm}
    (ha : TermText num a ta) (hb : TermText num b tb) : TermText num (opText o a b) (o.tm ta tb) :=
  TermText.bin o [] [' '] [' '] [] a b ta tb ws_zero ws_one ws_one ws_zero ha hb (ends_blank _ _)

/-- `v * v` -/
def tmSq (v : Char) : Tm := .mul (.word (String.ofList [v])) (.word (String.ofList [v]))

/-- `(1 + v^2)^3 >= (v^2 + 1) * (1 + v^2) * (w^4 + w^6 + w^2)` -/
def beforeFm (v w : Char) : Fm :=
  ⟨.ge, .mul (.mul (.add (.num 1) (tmSq v)) (.add (.num 1) (tmSq v))) (.add (.num 1) (tmSq v)),
    .mul (.mul (.add (tmSq v) (.num 1)) (.add (.num 1) (tmSq v)))
      (.add (.add (.mul (tmSq w) (tmSq w)) (.mul (tmSq w) (.mul (tmSq w) (tmSq w)))) (tmSq w))⟩

/-- the text of `v * v` -/
def sqText (v : Char) : List Char := opText .mul [v] [v]

/-- the text of an inequality -/
def geText (a b : List Char) : List Char := '(' :: ([] ++ (relSym .ge ++ ([' '] ++ (a ++ ([' '] ++ (b ++ ([] ++ [')'])))))))

theorem geText_ok {num : Bool → List Char → List Char → ℚ} {a b : List Char} {ta tb : Tm}
    (ha : TermText num a ta) (hb : TermText num b tb) : RelText num (geText a b) ⟨.ge, ta, tb⟩ :=
  RelText.mk [] [' '] [' '] [] a b .ge ta tb ws_zero ws_one ws_one ws_zero ha hb
    (fun c r h => by cases h; rw [← kwChar_iff]; decide) (ends_blank _ _)

/-- the text of a sequent with one formula -/
def goalText (r : List Char) : List Char := "(sequent \"s\" (antecedent) (succedent ".toList ++ (r ++ "))".toList)

theorem goalText_ok {num : Bool → List Char → List Char → ℚ} {r : List Char} {f : Fm} (hr : RelText num r f) :
    SequentText num (goalText r) ⟨['s'], [], [f]⟩ := by
  have h := SequentText.mk [] [' '] [' '] [] [' '] [] [] ['s'] _ _ _ _ ws_zero ws_one ws_one ws_zero ws_one ws_zero ws_zero
    (by decide) (RelsText.nil [] ws_zero) (RelsText.cons [' '] _ _ _ _ ws_one hr (RelsText.nil [] ws_zero))
  have e : [' '] ++ (r ++ []) ++ ')' :: ([] ++ [')']) = [' '] ++ (r ++ "))".toList) := by simp
  rw [e] at h
  exact h

/-- the text of the sequent with this formula -/
def beforeText (v w : Char) : List Char :=
  let A := opText .add ['1', '.'] (sqText v)
  let B := opText .add (sqText v) ['1', '.']
  let y₂ := sqText w
  let y₄ := opText .mul y₂ y₂
  let y₆ := opText .mul y₂ y₄
  goalText (geText (opText .mul (opText .mul A A) A)
    (opText .mul (opText .mul B A) (opText .add (opText .add y₄ y₆) y₂)))

theorem beforeText_ok {num : Bool → List Char → List Char → ℚ} (hnum : num false ['1'] [] = 1) (v w : Char) (hv : Word [v])
    (hw : Word [w]) : SequentText num (beforeText v w) ⟨['s'], [], [beforeFm v w]⟩ := by
  have h1 : TermText num ['1', '.'] (.num 1) := by
    have := TermText.num (num := num) false ['1'] [] (digits_test (by decide)) (Or.inl rfl)
    rwa [hnum] at this
  have sq : ∀ {u : Char}, Word [u] → TermText num (sqText u) (tmSq u) := fun hu =>
    opText_ok .mul (TermText.word _ hu) (TermText.word _ hu)
  have hA := opText_ok .add h1 (sq hv)
  have hB := opText_ok .add (sq hv) h1
  have h4 := opText_ok .mul (sq hw) (sq hw)
  have h6 := opText_ok .mul (sq hw) h4
  exact goalText_ok (geText_ok (opText_ok .mul (opText_ok .mul hA hA) hA)
    (opText_ok .mul (opText_ok .mul hB hA) (opText_ok .add (opText_ok .add h4 h6) (sq hw))))

theorem read_before (quot : MPoly → MPoly → Option MPoly) (c : Ctx) (v w : Char) :
    readFms quot c [beforeFm v w] = readFms (fun _ _ => none) c [beforeFm v w] := by
  simp only [readFms, readFm, readTm, beforeFm, tmSq]

/-- A sequent without hypotheses, without interaction. -/
theorem seqRun_goal {E : SmtEnv K} {o : Obj} (hi : o.interactive = false) {name : List Char} {f : Fm} {a : Atom} {c : Ctx}
    (hr : readFms E.quot o.ctx [f] = .ok ([a], c)) (lines : List (List Char)) (runs : ℕ) :
    (∀ e, check (E.core runs) 1 0 ⟨[], ⟨a, [], []⟩, []⟩ = .error e →
      seqRun E o lines runs ⟨name, [], [f]⟩ = .error (.act (.loop e))) ∧
    (check (E.core runs) 1 0 ⟨[], ⟨a, [], []⟩, []⟩ = .ok ([], ⟨[], ⟨a, [], []⟩, []⟩) →
      seqRun E o lines runs ⟨name, [], [f]⟩ =
        .ok (⟨c, (E.left [] [a]).1, (E.left [] [a]).2, name, some ([], []), false⟩, lines, runs + 1)) := by
  have h1 : readFms E.quot o.ctx [] = .ok ([], o.ctx) := rfl
  have h2 : seqState [] [a] = .ok ⟨[], ⟨a, [], []⟩, []⟩ := rfl
  constructor
  · intro e he
    unfold seqRun
    simp only [h1, hr, h2, hi, List.length_nil, Nat.zero_add]
    unfold iCheck
    simp only [bind, Except.bind, he]
    rfl
  · intro hc
    unfold seqRun
    simp only [h1, hr, h2, hi, List.length_nil, Nat.zero_add]
    unfold iCheck
    simp only [bind, Except.bind, hc]
    rfl

/-- **C132** is violated: there are two files with one sequent each for which `grf_on_file` returns, and for the file with both
sequents it raises an exception, in the second one, whatever the right functions of Sage, the random choices, the numbers of
sample points, local searches and solvers in the two runs. -/
theorem C132_violated (E : SmtEnv ℚ) (hnum : E.num false ['1'] [] = 1) (S : Sage ℚ) (R : ℕ → CadEnv)
    (hE : ∀ k, RootsOK ℝ (R k)) (hu : ∀ k, UniformOK (R k)) (hel : ∀ k, TrueElim (R k)) (numSps : ℕ → ℕ)
    (hn : ∀ k, 1 ≤ numSps k) (more : ℕ → ℕ → State → Dict ℚ → Except GErr (List (Dict ℚ)))
    (solve : ℕ → ℕ → List (List ℕ) → List ℕ → Option (List ℕ))
    (hcore : ∀ k, E.core k = cadCore S (R k) 2 (numSps k) (fun _ _ => []) (more k) (solve k)) (lines : List (List Char)) :
    ∃ (t t' : List Char) (q q' : FileSeq), FileText E.num t [q] ∧ FileText E.num t' [q'] ∧ FileText E.num (t ++ t') [q, q'] ∧
      grfOnFile E false true lines t = .ok ⟨(0, 0), some "(\"s\" () ())".toList⟩ ∧
      grfOnFile E false true lines t' = .ok ⟨(0, 0), some "(\"s\" () ())".toList⟩ ∧
      grfOnFile E false true lines (t ++ t') = .error .syntax := by
  have s1 := beforeText_ok hnum 'y' 'x' word_y word_x
  have s2 := beforeText_ok hnum 'x' 'y' word_x word_y
  have r1 : readFms E.quot Ctx.init [beforeFm 'y' 'x'] = .ok ([⟨namePoly, .ge, [0, 1]⟩], ⟨2, [("x", 1), ("y", 0)]⟩) := by
    rw [read_before]; decide +kernel
  have r2 : readFms E.quot Ctx.init [beforeFm 'x' 'y'] = .ok ([⟨namePoly, .ge, [0, 1]⟩], ⟨2, [("y", 1), ("x", 0)]⟩) := by
    rw [read_before]; decide +kernel
  have r3 : readFms E.quot ⟨2, [("x", 1), ("y", 0)]⟩ [beforeFm 'x' 'y'] =
      .ok ([⟨namePoly', .ge, [0, 1]⟩], ⟨2, [("x", 1), ("y", 0)]⟩) := by
    rw [read_before]; decide +kernel
  have c1 : check (E.core 0) 1 0 ⟨[], ⟨⟨namePoly, .ge, [0, 1]⟩, [], []⟩, []⟩ =
      .ok ([], ⟨[], ⟨⟨namePoly, .ge, [0, 1]⟩, [], []⟩, []⟩) := by
    rw [hcore]; exact name_proved S (R 0) (hel 0) _ _ _ 0
  have c2 : check (E.core 1) 1 0 ⟨[], ⟨⟨namePoly', .ge, [0, 1]⟩, [], []⟩, []⟩ = .error .indexError := by
    rw [hcore]; exact name_unproved S (R 1) (hE 1) (hu 1) _ (hn 1) _ _ 0
  have t1 : FileText E.num (beforeText 'y' 'x') [⟨['s'], [], [beforeFm 'y' 'x']⟩] := by
    have := FileText.cons [] _ _ _ _ ws_zero s1 (FileText.nil [] ws_zero)
    rwa [List.nil_append, List.append_nil] at this
  have t2 : FileText E.num (beforeText 'x' 'y') [⟨['s'], [], [beforeFm 'x' 'y']⟩] := by
    have := FileText.cons [] _ _ _ _ ws_zero s2 (FileText.nil [] ws_zero)
    rwa [List.nil_append, List.append_nil] at this
  have t3 : FileText E.num (beforeText 'y' 'x' ++ beforeText 'x' 'y')
      [⟨['s'], [], [beforeFm 'y' 'x']⟩, ⟨['s'], [], [beforeFm 'x' 'y']⟩] := FileText.cons [] _ _ _ _ ws_zero s1 t2
  have e : resultText ['s'] [] [] = "(\"s\" () ())".toList := by decide +kernel
  refine ⟨_, _, _, _, t1, t2, t3, ?_, ?_, ?_⟩
  · rw [file_one t1 r1 c1 true lines, if_pos rfl, e]
  · rw [file_one t2 r2 c1 true lines, if_pos rfl, e]
  · rw [C74_reading E false true lines _ _ t3]
    have k1 := (seqRun_goal (E := E) (o := Obj.new false) rfl (name := ['s']) r1 lines 0).2 c1
    have k2 := (seqRun_goal (E := E) (o := ⟨⟨2, [("x", 1), ("y", 0)]⟩, (E.left [] [⟨namePoly, .ge, [0, 1]⟩]).1,
      (E.left [] [⟨namePoly, .ge, [0, 1]⟩]).2, ['s'], some ([], []), false⟩) rfl (name := ['s']) r3 lines 1).1 _ c2
    simp only [seqsRun, k1, k2]
    rfl

/-- The file with the two sequents. -/
example : beforeText 'y' 'x' ++ beforeText 'x' 'y' =
    ("(sequent \"s\" (antecedent) (succedent (>= (* (* (+ 1. (* y y)) (+ 1. (* y y))) (+ 1. (* y y))) " ++
      "(* (* (+ (* y y) 1.) (+ 1. (* y y))) (+ (+ (* (* x x) (* x x)) (* (* x x) (* (* x x) (* x x)))) (* x x))))))" ++
      "(sequent \"s\" (antecedent) (succedent (>= (* (* (+ 1. (* x x)) (+ 1. (* x x))) (+ 1. (* x x))) " ++
      "(* (* (+ (* x x) 1.) (+ 1. (* x x))) (+ (+ (* (* y y) (* y y)) (* (* y y) (* (* y y) (* y y)))) (* y y))))))").toList := by
  decide +kernel

/-- The assumptions of C132_violated are met. -/
example : ∃ (E : SmtEnv ℚ) (S : Sage ℚ) (R : CadEnv), E.num false ['1'] [] = 1 ∧ RootsOK ℝ R ∧ UniformOK R ∧ TrueElim R ∧
    ∀ k, E.core k = cadCore S R 2 1 (fun _ _ => []) (fun _ _ _ => .ok []) fun _ _ _ => some [0] := by
  obtain ⟨R, h1, h2, h3⟩ := C72_assumptions_met
  exact ⟨testEnv (cadCore testSage R 2 1 (fun _ _ => []) (fun _ _ _ => .ok []) fun _ _ _ => some [0]), testSage, R,
    by show testNum false ['1'] [] = 1; decide +kernel, h1, h2, h3, fun _ => rfl⟩

/-- The assumptions of C132_partial are met by files with one and with two sequents before the last one. -/
example : FileText (testEnv fileCore).num twoText ([fileSeq ['s', '1']] ++ [fileSeq ['s', '2']]) ∧
    FileText (testEnv fileCore).num (seqText ['s', '0'] ++ twoText)
      ([fileSeq ['s', '0'], fileSeq ['s', '1']] ++ [fileSeq ['s', '2']]) ∧
    ([fileSeq ['s', '1']].flatMap FileSeq.names).reverse.dedup =
      ([fileSeq ['s', '0'], fileSeq ['s', '1']].flatMap FileSeq.names).reverse.dedup ∧
    ([fileSeq ['s', '1']].flatMap FileSeq.names).reverse.dedup = ["y", "x"] ∧
    (grfOnFile (testEnv fileCore) false true [] (seqText ['s', '0'] ++ twoText)).toOption =
      some ⟨(1, 0), some "(\"s2\" (hide_antecedent_1) ())".toList⟩ ∧
    (grfOnFile (testEnv fileCore) false true [] twoText).toOption =
      some ⟨(1, 0), some "(\"s2\" (hide_antecedent_1) ())".toList⟩ :=
  ⟨twoText_ok, FileText.cons [] _ _ _ _ ws_zero (seqText_ok _ (by decide)) twoText_ok, by decide +kernel, by decide +kernel,
    by decide +kernel, by decide +kernel⟩

end Verif.Grf
