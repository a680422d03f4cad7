import Verif.Grf.PropsSmtFile

/-!
# C131: the outcome of `grf_on_file` does not depend on the choice of the names in a file

The names in a file (`GRF/smt2.py:60-81`) are only compared with each other. So the outcome is the same, with the same
exceptions, if the names are replaced by others; only the text between quotation marks is copied to the output.
-/

set_option linter.unusedSectionVars false

namespace Verif.Grf

/-- A term with other names. -/
def Tm.rename (σ : String → String) : Tm → Tm
  | .num q => .num q
  | .word s => .word (σ s)
  | .add a b => .add (a.rename σ) (b.rename σ)
  | .mul a b => .mul (a.rename σ) (b.rename σ)
  | .sub a b => .sub (a.rename σ) (b.rename σ)
  | .neg a => .neg (a.rename σ)
  | .div a b => .div (a.rename σ) (b.rename σ)

/-- A formula with other names. -/
def Fm.rename (σ : String → String) (f : Fm) : Fm := ⟨f.op, f.lhs.rename σ, f.rhs.rename σ⟩

/-- A sequent with other names of the variables. -/
def FileSeq.rename (σ : String → String) (q : FileSeq) : FileSeq :=
  ⟨q.name, q.ante.map (Fm.rename σ), q.succ.map (Fm.rename σ)⟩

/-- The names in the formulas of a sequent. -/
def FileSeq.names (q : FileSeq) : List String := (q.ante ++ q.succ).flatMap fun f => f.lhs.words ++ f.rhs.words

/-- A context with other names. -/
def Ctx.rename (σ : String → String) (c : Ctx) : Ctx := ⟨c.gens, c.varMap.map fun p => (σ p.1, p.2)⟩

/-- The names of a context. -/
def Ctx.In (S : Set String) (c : Ctx) : Prop := ∀ p ∈ c.varMap, p.1 ∈ S

variable {σ : String → String} {S : Set String}

theorem lookup_rename (hσ : S.InjOn σ) {s : String} (hs : s ∈ S) : ∀ l : List (String × ℕ), (∀ p ∈ l, p.1 ∈ S) →
    (l.map fun p => (σ p.1, p.2)).lookup (σ s) = l.lookup s
  | [], _ => rfl
  | p :: l, h => by
    have ih := lookup_rename hσ hs l fun p hp => h p (List.mem_cons_of_mem _ hp)
    rw [List.map_cons, List.lookup_cons, List.lookup_cons]
    by_cases e : s = p.1
    · rw [e]; simp
    · have e' : σ s ≠ σ p.1 := fun e' => e (hσ hs (h p List.mem_cons_self) e')
      rw [beq_false_of_ne e, beq_false_of_ne e']
      exact ih

theorem getVar_rename (hσ : S.InjOn σ) {c : Ctx} (hc : c.In S) {s : String} (hs : s ∈ S) :
    (c.rename σ).getVar (σ s) = ((c.getVar s).1, (c.getVar s).2.rename σ) ∧ (c.getVar s).2.In S := by
  unfold Ctx.getVar
  have h : (c.rename σ).varMap.lookup (σ s) = c.varMap.lookup s := lookup_rename hσ hs _ hc
  have hl : (c.rename σ).varMap.length = c.varMap.length := by simp [Ctx.rename]
  have hg : (c.rename σ).gens = c.gens := rfl
  rw [h, hl, hg]
  cases c.varMap.lookup s with
  | some i => exact ⟨rfl, hc⟩
  | none =>
    simp only
    by_cases hlt : c.varMap.length < c.gens
    · rw [if_pos hlt, if_pos hlt]
      refine ⟨rfl, fun p hp => ?_⟩
      rcases List.mem_cons.1 hp with rfl | hp
      · exact hs
      · exact hc p hp
    · rw [if_neg hlt, if_neg hlt]
      refine ⟨rfl, fun p hp => ?_⟩
      rcases List.mem_cons.1 hp with rfl | hp
      · exact hs
      · exact hc p hp

/-- The same outcome, and the context with other names. -/
def Alike {α : Type} (σ : String → String) (S : Set String) (r r' : Except GErr (α × Ctx)) : Prop :=
  match r with
  | .error e => r' = .error e
  | .ok x => r' = .ok (x.1, x.2.rename σ) ∧ x.2.In S

/-- Two steps one after the other. -/
theorem Alike.bind {α β : Type} {r r' : Except GErr (α × Ctx)} {f f' : α × Ctx → Except GErr (β × Ctx)}
    (h : Alike σ S r r') (hf : ∀ x, x.2.In S → Alike σ S (f x) (f' (x.1, x.2.rename σ))) :
    Alike σ S (r >>= f) (r' >>= f') := by
  cases r with
  | error e => rw [show r' = .error e from h]; rfl
  | ok x =>
    rw [h.1]
    exact hf x h.2

theorem readTm_rename (hσ : S.InjOn σ) (quot : MPoly → MPoly → Option MPoly) (t : Tm) : ∀ c : Ctx, c.In S →
    (∀ s ∈ t.words, s ∈ S) → Alike σ S (readTm quot c t) (readTm quot (c.rename σ) (t.rename σ)) := by
  induction t with
  | num q => intro c hc _; exact ⟨rfl, hc⟩
  | word s =>
    intro c hc hs
    obtain ⟨h1, h2⟩ := getVar_rename hσ hc (hs s (by simp [Tm.words]))
    simp only [readTm, Tm.rename]
    rw [h1]
    exact ⟨rfl, h2⟩
  | neg a iha =>
    intro c hc hs
    simp only [readTm, Tm.rename]
    exact (iha c hc fun s h => hs s (by simp [Tm.words, h])).bind fun x hx => ⟨rfl, hx⟩
  | add a b iha ihb | mul a b iha ihb | sub a b iha ihb =>
    intro c hc hs
    simp only [readTm, Tm.rename]
    exact (iha c hc fun s h => hs s (by simp [Tm.words, h])).bind fun x hx =>
      (ihb x.2 hx fun s h => hs s (by simp [Tm.words, h])).bind fun y hy => ⟨rfl, hy⟩
  | div a b iha ihb =>
    intro c hc hs
    simp only [readTm, Tm.rename]
    refine (iha c hc fun s h => hs s (by simp [Tm.words, h])).bind fun x hx =>
      (ihb x.2 hx fun s h => hs s (by simp [Tm.words, h])).bind fun y hy => ?_
    simp only
    cases quot x.1 y.1 with
    | none => rfl
    | some q => exact ⟨rfl, hy⟩

theorem readFms_rename (hσ : S.InjOn σ) (quot : MPoly → MPoly → Option MPoly) : ∀ (l : List Fm) (c : Ctx), c.In S →
    (∀ f ∈ l, ∀ s ∈ f.lhs.words ++ f.rhs.words, s ∈ S) →
    Alike σ S (readFms quot c l) (readFms quot (c.rename σ) (l.map (Fm.rename σ)))
  | [], c, hc, _ => ⟨rfl, hc⟩
  | f :: l, c, hc, h => by
    simp only [readFms, List.map_cons]
    refine Alike.bind ?_ fun x hx => (readFms_rename hσ quot l x.2 hx fun g hg => h g (List.mem_cons_of_mem _ hg)).bind
      fun y hy => ⟨rfl, hy⟩
    have hf := h f List.mem_cons_self
    simp only [readFm, Fm.rename]
    refine (readTm_rename hσ quot f.lhs c hc fun s hs => hf s (List.mem_append_left _ hs)).bind fun x hx =>
      (readTm_rename hσ quot f.rhs x.2 hx fun s hs => hf s (List.mem_append_right _ hs)).bind fun y hy => ?_
    simp only [bind, Except.bind]
    cases mkAtom x.1 f.op.toString y.1 with
    | error e => rfl
    | ok a => exact ⟨rfl, hy⟩

variable {K : Type} [Field K] [LinearOrder K] [IsStrictOrderedRing K]

/-- An object with other names in its context. -/
def Obj.rename (σ : String → String) (o : Obj) : Obj := { o with ctx := o.ctx.rename σ }

theorem seqRun_rename (hσ : S.InjOn σ) (E : SmtEnv K) (o : Obj) (ho : o.ctx.In S) (lines : List (List Char)) (runs : ℕ)
    (q : FileSeq) (hq : ∀ s ∈ q.names, s ∈ S) :
    match seqRun E o lines runs q with
    | .error e => seqRun E (o.rename σ) lines runs (q.rename σ) = .error e
    | .ok x => seqRun E (o.rename σ) lines runs (q.rename σ) = .ok (x.1.rename σ, x.2) ∧ x.1.ctx.In S := by
  have hmem : ∀ f ∈ q.ante ++ q.succ, ∀ s ∈ f.lhs.words ++ f.rhs.words, s ∈ S := fun f hf s hs =>
    hq s (List.mem_flatMap.2 ⟨f, hf, hs⟩)
  have hA := readFms_rename hσ E.quot q.ante o.ctx ho fun f hf => hmem f (List.mem_append_left _ hf)
  unfold seqRun
  simp only [Obj.rename, FileSeq.rename]
  cases hrA : readFms E.quot o.ctx q.ante with
  | error e =>
    rw [hrA] at hA
    rw [show readFms E.quot (o.ctx.rename σ) (q.ante.map (Fm.rename σ)) = .error e from hA]
  | ok A =>
    rw [hrA] at hA
    have hB := readFms_rename hσ E.quot q.succ A.2 hA.2 fun f hf => hmem f (List.mem_append_right _ hf)
    rw [hA.1]
    simp only
    cases hrB : readFms E.quot A.2 q.succ with
    | error e =>
      rw [hrB] at hB
      rw [show readFms E.quot (A.2.rename σ) (q.succ.map (Fm.rename σ)) = .error e from hB]
    | ok B =>
      rw [hrB] at hB
      rw [hB.1]
      simp only
      cases seqState A.1 B.1 with
      | error e => rfl
      | ok s =>
        simp only
        cases iCheck (E.core runs) E.int (s.hyps.length + 1) 0 o.interactive s lines with
        | error e => rfl
        | ok r => exact ⟨rfl, hB.2⟩

theorem seqsRun_rename (hσ : S.InjOn σ) (E : SmtEnv K) : ∀ (l : List FileSeq) (x : Obj × List (List Char) × ℕ),
    x.1.ctx.In S → (∀ q ∈ l, ∀ s ∈ q.names, s ∈ S) →
    match seqsRun E x l with
    | .error e => seqsRun E (x.1.rename σ, x.2) (l.map (FileSeq.rename σ)) = .error e
    | .ok y => seqsRun E (x.1.rename σ, x.2) (l.map (FileSeq.rename σ)) = .ok (y.1.rename σ, y.2)
  | [], x, _, _ => rfl
  | q :: l, x, hx, h => by
    have h1 := seqRun_rename hσ E x.1 hx x.2.1 x.2.2 q (h q List.mem_cons_self)
    simp only [seqsRun, List.map_cons]
    cases hr : seqRun E x.1 x.2.1 x.2.2 q with
    | error e => rw [hr] at h1; simp only at h1; rw [h1]
    | ok y =>
      rw [hr] at h1
      rw [h1.1]
      exact seqsRun_rename hσ E l y h1.2 fun p hp => h p (List.mem_cons_of_mem _ hp)

/-- **C131**: if the names in a file are replaced by others, different ones by different ones, and the white space is changed in
any way, the outcome of `grf_on_file` is the same: the exception, or the result and the text of the output, with or without
interaction. -/
theorem C131_names (E : SmtEnv K) (interactive out : Bool) (lines : List (List Char)) (text text' : List Char)
    (l : List FileSeq) (σ : String → String) (hσ : ∀ s ∈ l.flatMap FileSeq.names, ∀ t ∈ l.flatMap FileSeq.names, σ s = σ t → s = t)
    (h : FileText E.num text l) (h' : FileText E.num text' (l.map (FileSeq.rename σ))) :
    grfOnFile E interactive out lines text' = grfOnFile E interactive out lines text := by
  rw [C74_reading E interactive out lines text l h, C74_reading E interactive out lines text' _ h']
  have hr := seqsRun_rename (σ := σ) (S := {s | s ∈ l.flatMap FileSeq.names}) (fun s hs t ht e => hσ s hs t ht e) E l
    (Obj.new interactive, lines, 0) (fun p hp => by simp [Obj.new, Ctx.init] at hp)
    (fun q hq s hs => List.mem_flatMap.2 ⟨q, hq, hs⟩)
  have e : (Obj.new interactive).rename σ = Obj.new interactive := rfl
  simp only [e] at hr
  cases hs : seqsRun E (Obj.new interactive, lines, 0) l with
  | error er => rw [hs] at hr; simp only at hr; rw [hr]
  | ok x => rw [hs] at hr; simp only at hr; rw [hr]; rfl

theorem seqRun_title (E : SmtEnv K) (o : Obj) (n : List Char) (lines : List (List Char)) (runs : ℕ) (q q' : FileSeq)
    (ha : q'.ante = q.ante) (hs : q'.succ = q.succ) :
    seqRun E { o with name := n } lines runs q' =
      (seqRun E o lines runs q).map fun x => ({ x.1 with name := q'.name }, x.2) := by
  unfold seqRun
  simp only [ha, hs]
  cases readFms E.quot o.ctx q.ante with
  | error e => rfl
  | ok A =>
    simp only
    cases readFms E.quot A.2 q.succ with
    | error e => rfl
    | ok B =>
      simp only
      cases seqState A.1 B.1 with
      | error e => rfl
      | ok s =>
        simp only
        cases iCheck (E.core runs) E.int (s.hyps.length + 1) 0 o.interactive s lines <;> rfl

theorem seqsRun_title (E : SmtEnv K) {l l' : List FileSeq} (h : List.Forall₂ (fun q q' => q'.ante = q.ante ∧ q'.succ = q.succ) l l') :
    ∀ (x : Obj × List (List Char) × ℕ) (n : List Char),
      seqsRun E ({ x.1 with name := n }, x.2) l' =
        (seqsRun E x l).map fun y => ({ y.1 with name := (l'.map FileSeq.name).getLast?.getD n }, y.2) := by
  induction h with
  | nil => intro x n; rfl
  | @cons q q' l l' hq hl ih =>
    intro x n
    simp only [seqsRun]
    rw [seqRun_title E x.1 n x.2.1 x.2.2 q q' hq.1 hq.2]
    cases seqRun E x.1 x.2.1 x.2.2 q with
    | error e => rfl
    | ok y =>
      simp only [Except.map]
      rw [ih y q'.name]
      cases seqsRun E y l with
      | error e => rfl
      | ok z =>
        simp only [Except.map]
        congr 3
        rw [List.map_cons, List.getLast?_cons]
        rfl

/-- **C131** (names of sequents): if other texts are written between the quotation marks, the exceptions and the returned numbers
of formulas are the same, and the output differs only in the name of the last sequent. -/
theorem C131_titles (E : SmtEnv K) (interactive : Bool) (lines : List (List Char)) (text text' : List Char)
    (l l' : List FileSeq) (q q' : FileSeq)
    (hl : List.Forall₂ (fun q q' => q'.ante = q.ante ∧ q'.succ = q.succ) (l ++ [q]) (l' ++ [q']))
    (h : FileText E.num text (l ++ [q])) (h' : FileText E.num text' (l' ++ [q'])) :
    (∀ e, grfOnFile E interactive true lines text = .error e → grfOnFile E interactive true lines text' = .error e) ∧
    ∀ o, grfOnFile E interactive true lines text = .ok o → ∃ r : List Char,
      o.file = some ("(\"".toList ++ (q.name ++ '"' :: r)) ∧
      grfOnFile E interactive true lines text' = .ok ⟨o.ret, some ("(\"".toList ++ (q'.name ++ '"' :: r))⟩ := by
  rw [C74_reading E interactive true lines text _ h, C74_reading E interactive true lines text' _ h']
  have e0 : ({ Obj.new interactive with name := [] } : Obj) = Obj.new interactive := rfl
  have e := seqsRun_title E hl (Obj.new interactive, lines, 0) []
  have e' := seqsRun_title E (List.forall₂_same.2 fun (p : FileSeq) (_ : p ∈ l ++ [q]) => ⟨rfl, rfl⟩)
    (Obj.new interactive, lines, 0) []
  simp only [e0, List.map_append, List.map_cons, List.map_nil, List.getLast?_append, List.getLast?_singleton] at e e'
  rw [e]
  cases hx : seqsRun E (Obj.new interactive, lines, 0) (l ++ [q]) with
  | error er => exact ⟨fun _ h => h, fun o ho => by cases ho⟩
  | ok x =>
    rw [hx] at e'
    have hn : x.1.name = q.name := congrArg (fun y : Obj × List (List Char) × ℕ => y.1.name) (Except.ok.inj e')
    simp only [Except.map]
    cases x.1.result with
    | none => exact ⟨fun _ h => h, fun o ho => by cases ho⟩
    | some r =>
      refine ⟨fun _ h => (by cases h), fun o ho => ?_⟩
      cases ho
      refine ⟨" (".toList ++ (joinNums "hide_antecedent_".toList r.1 ++ (") (".toList ++
        (joinNums "hide_succedent_".toList r.2 ++ "))".toList))), ?_, ?_⟩
      · simp only [if_true, hn, resultText, List.append_assoc]
        rfl
      · simp only [if_true, resultText, List.append_assoc]
        rfl

/-- The hypotheses of C131_titles are met by two files with two sequents each. -/
example : List.Forall₂ (fun q q' => q'.ante = q.ante ∧ q'.succ = q.succ) ([fileSeq ['s', '1']] ++ [fileSeq ['s', '2']])
      ([fileSeq ['s', '2']] ++ [fileSeq ['(']]) ∧
    FileText testNum twoText ([fileSeq ['s', '1']] ++ [fileSeq ['s', '2']]) ∧
    FileText testNum (seqText ['s', '2'] ++ (seqText ['('] ++ ['\n'])) ([fileSeq ['s', '2']] ++ [fileSeq ['(']]) :=
  ⟨.cons ⟨rfl, rfl⟩ (.cons ⟨rfl, rfl⟩ .nil), twoText_ok,
    FileText.cons [] _ _ _ _ ws_zero (seqText_ok _ (by decide))
      (FileText.cons [] _ _ _ _ ws_zero (seqText_ok _ (by decide)) (FileText.nil _ ws_nl))⟩

/-! ### Examples -/

/-- `(> (+ v 1.) 0.)` -/
theorem text_goal_of (v : Char) (hv : Word [v]) : RelText testNum (['(', '>', '(', '+'] ++ v :: " 1.)0.)".toList)
    ⟨.gt, .add (.word (String.ofList [v])) (.num (testNum false ['1'] [])), .num (testNum false ['0'] [])⟩ :=
  RelText.mk [] [] [] [] (['(', '+'] ++ v :: " 1.)".toList) ['0', '.'] .gt _ _ ws_zero ws_zero ws_zero ws_zero
    (TermText.bin .add [] [] [' '] [] [v] ['1', '.'] _ _ ws_zero ws_zero ws_one ws_zero (TermText.word _ hv)
      (TermText.num false ['1'] [] (digits_test (by decide)) (Or.inl rfl))
      (fun c r h => by cases h; rw [← isWord_iff]; decide))
    (TermText.num false ['0'] [] (digits_test (by decide)) (Or.inl rfl))
    (fun c r h => by cases h; rw [← kwChar_iff]; decide) trivial

/-- the text of `v > 0, w > 0 ⊢ v + 1 > 0` -/
def namedText (v w : Char) : List Char :=
  "(sequent \"s\" (antecedent (> ".toList ++ v :: " 0.)(> ".toList ++ w :: " 0.)) (succedent(>(+".toList ++ v :: " 1.)0.)))".toList

/-- `v > 0, w > 0 ⊢ v + 1 > 0` -/
def namedSeq (v w : Char) : FileSeq :=
  ⟨['s'], [⟨.gt, .word (String.ofList [v]), .num (testNum false ['0'] [])⟩,
      ⟨.gt, .word (String.ofList [w]), .num (testNum false ['0'] [])⟩],
    [⟨.gt, .add (.word (String.ofList [v])) (.num (testNum false ['1'] [])), .num (testNum false ['0'] [])⟩]⟩

theorem namedText_ok (v w : Char) (hv : Word [v]) (hw : Word [w]) : FileText testNum (namedText v w) [namedSeq v w] :=
  FileText.cons [] _ _ _ _ ws_zero
    (SequentText.mk [] [' '] [' '] [] [' '] [] [] ['s'] _ _ _ _ ws_zero ws_one ws_one ws_zero ws_one ws_zero ws_zero (by decide)
      (RelsText.cons [' '] _ _ _ _ ws_one (text_gt v hv)
        (RelsText.cons [] _ _ _ _ ws_zero (text_gt w hw) (RelsText.nil [] ws_zero)))
      (RelsText.cons [] _ _ _ _ ws_zero (text_goal_of v hv) (RelsText.nil [] ws_zero)))
    (FileText.nil [] ws_zero)

/-- exchanges the names `x` and `y` -/
def swapNames (s : String) : String := if s = "x" then "y" else if s = "y" then "x" else s

theorem swap_rename : (namedSeq 'x' 'y').rename swapNames = namedSeq 'y' 'x' := by
  simp [FileSeq.rename, namedSeq, Fm.rename, Tm.rename, swapNames]

/-- The hypotheses of C131_names are met by exchanging `x` and `y` in a file, and the call returns for both. -/
example : (∀ s ∈ [namedSeq 'x' 'y'].flatMap FileSeq.names, ∀ t ∈ [namedSeq 'x' 'y'].flatMap FileSeq.names,
      swapNames s = swapNames t → s = t) ∧
    FileText testNum (namedText 'x' 'y') [namedSeq 'x' 'y'] ∧
    FileText testNum (namedText 'y' 'x') ([namedSeq 'x' 'y'].map (FileSeq.rename swapNames)) ∧
    (grfOnFile (testEnv fileCore) false true [] (namedText 'x' 'y')).toOption =
      some ⟨(1, 0), some "(\"s\" (hide_antecedent_1) ())".toList⟩ ∧
    (grfOnFile (testEnv fileCore) false true [] (namedText 'y' 'x')).toOption =
      some ⟨(1, 0), some "(\"s\" (hide_antecedent_1) ())".toList⟩ := by
  refine ⟨by decide +kernel, namedText_ok _ _ word_x word_y, ?_, by decide +kernel, by decide +kernel⟩
  rw [List.map_singleton, swap_rename]
  exact namedText_ok _ _ word_y word_x

/-- Different names must be replaced by different names: with `x` for `y` the outcome is another one. -/
theorem C131_needed : ∃ (E : SmtEnv ℚ) (text text' : List Char) (l : List FileSeq) (σ : String → String),
    FileText E.num text l ∧ FileText E.num text' (l.map (FileSeq.rename σ)) ∧
    (grfOnFile E false true [] text').toOption ≠ (grfOnFile E false true [] text).toOption := by
  refine ⟨testEnv fileCore, namedText 'x' 'y', namedText 'x' 'x', [namedSeq 'x' 'y'], fun _ => "x",
    namedText_ok _ _ word_x word_y, ?_, by decide +kernel⟩
  exact namedText_ok _ _ word_x word_x

end Verif.Grf
