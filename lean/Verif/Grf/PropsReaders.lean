import Verif.Grf.PropsSmtFile
import Verif.Vts.PropsUniv

/-!
# C129: the two programs that read sequent files

`grf_on_file` (`GRF/smt2.py`) and `parse_files_from_dir` (`vts/examples_parser.py`, with the grammar of
`vts/grf_parser.py`) read the same files.
-/

set_option linter.unusedSectionVars false

namespace Verif.Grf

open Verif.Vts (isWs skipWs isNum Ws Digits decimal Letter Name isWs_iff isNum_iff)

/-! ### The common syntax -/

/-- the terms of the other program -/
def BinOp.vtm : BinOp → Vts.Tm → Vts.Tm → Vts.Tm
  | .add => .add
  | .mul => .mul
  | .sub => .sub
  | .div => .div

/-- The texts of a term in the common syntax, with what they denote for the two programs: numbers `12.` and `1.25` without
sign, names that begin with a letter and consist of letters, digits and `_`, and operators, with white space between
their arguments. -/
inductive CommonTerm : List Char → Tm → Vts.Tm → Prop
  | whole (ds : List Char) (h : Digits ds) : CommonTerm (ds ++ ['.']) (.num (decimal ds)) (.int (decimal ds))
  | dec (ds es : List Char) (h : Digits ds) (h' : Digits es) :
      CommonTerm (ds ++ '.' :: es) (.num (decimal ds + decimal es / 10 ^ es.length))
        (.dec (decimal ds + decimal es / 10 ^ es.length))
  | name (s : List Char) (h : Name s) : CommonTerm s (.word (String.ofList s)) (.var s)
  | bin (o : BinOp) (w₁ w₂ w₃ w₄ a b : List Char) (ta tb : Tm) (ua ub : Vts.Tm) (h₁ : Ws w₁) (h₂ : Ws w₂) (h₃ : Ws w₃)
      (h₄ : Ws w₄) (hw : w₃ ≠ []) (ha : CommonTerm a ta ua) (hb : CommonTerm b tb ub) :
      CommonTerm ('(' :: (w₁ ++ o.sym :: (w₂ ++ (a ++ (w₃ ++ (b ++ (w₄ ++ [')']))))))) (o.tm ta tb) (o.vtm ua ub)
  | neg (w₁ w₂ w₄ a : List Char) (ta : Tm) (ua : Vts.Tm) (h₁ : Ws w₁) (h₂ : Ws w₂) (h₄ : Ws w₄) (ha : CommonTerm a ta ua) :
      CommonTerm ('(' :: (w₁ ++ '-' :: (w₂ ++ (a ++ (w₄ ++ [')']))))) (.neg ta) (.neg ua)

/-- the relations of the other program -/
def vkind : Op → Vts.RelKind
  | .gt => .gt
  | .lt => .lt
  | .le => .le
  | .ge => .ge
  | .eq => .eq
  | .ne => .ne

/-- The texts of a formula in the common syntax. -/
inductive CommonRel : List Char → Fm → Vts.Rel Vts.Tm → Prop
  | mk (w₁ w₂ w₃ w₄ a b : List Char) (op : Op) (ta tb : Tm) (ua ub : Vts.Tm) (h₁ : Ws w₁) (h₂ : Ws w₂) (h₃ : Ws w₃)
      (h₄ : Ws w₄) (hw₂ : w₂ ≠ []) (hw₃ : w₃ ≠ []) (ha : CommonTerm a ta ua) (hb : CommonTerm b tb ub) :
      CommonRel ('(' :: (w₁ ++ (relSym op ++ (w₂ ++ (a ++ (w₃ ++ (b ++ (w₄ ++ [')'])))))))) ⟨op, ta, tb⟩ ⟨vkind op, ua, ub⟩

/-- The texts of a list of formulas in the common syntax. -/
inductive CommonRels : List Char → List Fm → List (Vts.Rel Vts.Tm) → Prop
  | nil (w : List Char) (hw : Ws w) : CommonRels w [] []
  | cons (w s rest : List Char) (f : Fm) (r : Vts.Rel Vts.Tm) (l : List Fm) (l' : List (Vts.Rel Vts.Tm)) (hw : Ws w)
      (hs : CommonRel s f r) (hr : CommonRels rest l l') : CommonRels (w ++ (s ++ rest)) (f :: l) (r :: l')

/-- The texts of a sequent in the common syntax; there are no tabs in its name. -/
inductive CommonSequent : List Char → FileSeq → Vts.Sequent → Prop
  | mk (w₁ w₂ w₃ w₄ w₅ w₆ w₇ name a b : List Char) (la lb : List Fm) (la' lb' : List (Vts.Rel Vts.Tm)) (h₁ : Ws w₁)
      (h₂ : Ws w₂) (h₃ : Ws w₃) (h₄ : Ws w₄) (h₅ : Ws w₅) (h₆ : Ws w₆) (h₇ : Ws w₇) (hn : '"' ∉ name ∧ '\t' ∉ name)
      (ha : CommonRels a la la') (hb : CommonRels b lb lb') :
      CommonSequent ('(' :: (w₁ ++ ("sequent".toList ++ (w₂ ++ '"' :: (name ++ '"' :: (w₃ ++ '(' :: (w₄ ++
        ("antecedent".toList ++ (a ++ ')' :: (w₅ ++ '(' :: (w₆ ++ ("succedent".toList ++ (b ++ ')' :: (w₇ ++
        [')'])))))))))))))) ⟨name, la, lb⟩ ⟨name, la', lb'⟩

/-- The texts of a file in the common syntax: sequents with white space around them. -/
inductive CommonFile : List Char → List FileSeq → List Vts.Sequent → Prop
  | nil (w : List Char) (hw : Ws w) : CommonFile w [] []
  | cons (w s rest : List Char) (q : FileSeq) (q' : Vts.Sequent) (l : List FileSeq) (l' : List Vts.Sequent) (hw : Ws w)
      (hs : CommonSequent s q q') (hr : CommonFile rest l l') : CommonFile (w ++ (s ++ rest)) (q :: l) (q' :: l')

/-- Decimal numerals denote what they denote. -/
def Decimals (num : Bool → List Char → List Char → ℚ) : Prop :=
  ∀ ds es, Digits ds → (es = [] ∨ Digits es) → num false ds es = decimal ds + decimal es / 10 ^ es.length

/-! ### Both programs read the common syntax -/

theorem ws_head {w : List Char} (h : Ws w) (hne : w ≠ []) (b : List Char) (c : Char) (r : List Char)
    (e : w ++ b = c :: r) : isWs c = true := by
  cases w with
  | nil => exact absurd rfl hne
  | cons d w =>
    simp only [List.cons_append, List.cons.injEq] at e
    rw [← e.1]
    exact isWs_iff.2 (h d (by simp))

theorem ws_not_word {c : Char} (h : isWs c = true) : isWord c = false := by
  rcases isWs_iff.1 h with rfl | rfl | rfl | rfl <;> decide

theorem name_word {s : List Char} (h : Name s) : Word s := by
  obtain ⟨c, r, rfl, hc, hr⟩ := h
  refine ⟨by simp, ?_, ?_⟩
  · intro d hd
    rcases List.mem_cons.1 hd with rfl | hd
    · unfold Letter at hc
      unfold WordChar
      tauto
    · have := hr d hd
      unfold Letter at this
      unfold WordChar
      tauto
  · intro ds t hds e
    obtain ⟨hne, hd⟩ := hds
    cases ds with
    | nil => exact hne rfl
    | cons d ds =>
      simp only [List.cons_append, List.cons.injEq] at e
      obtain ⟨rfl, -⟩ := e
      have hd := hd c (by simp)
      unfold Letter at hc
      have e1 : 'a'.toNat = 97 := rfl
      have e2 : 'A'.toNat = 65 := rfl
      have e3 : '9'.toNat = 57 := rfl
      rcases hc with hc | hc | rfl
      · omega
      · omega
      · exact absurd hd.2 (by decide)

theorem common_term_grf {num : Bool → List Char → List Char → ℚ} (hnum : Decimals num) {s : List Char} {t : Tm}
    {u : Vts.Tm} (h : CommonTerm s t u) : TermText num s t := by
  induction h with
  | whole ds h =>
    have := TermText.num (num := num) false ds [] h (Or.inl rfl)
    rw [hnum ds [] h (Or.inl rfl)] at this
    simpa [decimal] using this
  | dec ds es h h' =>
    have := TermText.num (num := num) false ds es h (Or.inr h')
    rw [hnum ds es h (Or.inr h')] at this
    simpa using this
  | name s h => exact .word s (name_word h)
  | bin o w₁ w₂ w₃ w₄ a b ta tb ua ub h₁ h₂ h₃ h₄ hw _ _ iha ihb =>
    exact .bin o w₁ w₂ w₃ w₄ a b ta tb h₁ h₂ h₃ h₄ iha ihb
      (ends_nonword fun c r e => ws_not_word (ws_head h₃ hw b c r e))
  | neg w₁ w₂ w₄ a ta ua h₁ h₂ h₄ _ iha => exact .neg w₁ w₂ w₄ a ta h₁ h₂ h₄ iha

theorem common_term_vts {s : List Char} {t : Tm} {u : Vts.Tm} (h : CommonTerm s t u) : Vts.TermText s u := by
  induction h with
  | whole ds h => exact .int ds true h
  | dec ds es h h' => exact .dec ds es h h'
  | name s h => exact .var s h
  | bin o w₁ w₂ w₃ w₄ a b ta tb ua ub h₁ h₂ h₃ h₄ hw _ _ iha ihb =>
    cases o with
    | add => exact .add w₁ w₂ w₃ w₄ a b ua ub h₁ h₂ h₃ h₄ hw iha ihb
    | mul => exact .mul w₁ w₂ w₃ w₄ a b ua ub h₁ h₂ h₃ h₄ hw iha ihb
    | sub => exact .sub w₁ w₂ w₃ w₄ a b ua ub h₁ h₂ h₃ h₄ hw iha ihb
    | div => exact .div w₁ w₂ w₃ w₄ a b ua ub h₁ h₂ h₃ h₄ hw iha ihb
  | neg w₁ w₂ w₄ a ta ua h₁ h₂ h₄ _ iha => exact .neg w₁ w₂ w₄ a ua h₁ h₂ h₄ iha

theorem common_rel_grf {num : Bool → List Char → List Char → ℚ} (hnum : Decimals num) {s : List Char} {f : Fm}
    {r : Vts.Rel Vts.Tm} (h : CommonRel s f r) : RelText num s f := by
  obtain ⟨w₁, w₂, w₃, w₄, a, b, op, ta, tb, ua, ub, h₁, h₂, h₃, h₄, hw₂, hw₃, ha, hb⟩ := h
  refine .mk w₁ w₂ w₃ w₄ a b op ta tb h₁ h₂ h₃ h₄ (common_term_grf hnum ha) (common_term_grf hnum hb) ?_
    (ends_nonword fun c r e => ws_not_word (ws_head h₃ hw₃ b c r e))
  intro c r e hc
  rcases isWs_iff.1 (ws_head h₂ hw₂ a c r e) with rfl | rfl | rfl | rfl <;> exact absurd hc (by unfold KwChar; decide)

theorem common_rel_vts {s : List Char} {f : Fm} {r : Vts.Rel Vts.Tm} (h : CommonRel s f r) : Vts.RelText s r := by
  obtain ⟨w₁, w₂, w₃, w₄, a, b, op, ta, tb, ua, ub, h₁, h₂, h₃, h₄, hw₂, hw₃, ha, hb⟩ := h
  have e : relSym op = Vts.relSymbol (vkind op) := by cases op <;> rfl
  rw [e]
  exact .mk w₁ w₂ w₃ w₄ a b (vkind op) ua ub h₁ h₂ h₃ h₄ hw₂ hw₃ (common_term_vts ha) (common_term_vts hb)

theorem common_rels_grf {num : Bool → List Char → List Char → ℚ} (hnum : Decimals num) {s : List Char} {l : List Fm}
    {l' : List (Vts.Rel Vts.Tm)} (h : CommonRels s l l') : RelsText num s l := by
  induction h with
  | nil w hw => exact .nil w hw
  | cons w s rest f r l l' hw hs _ ih => exact .cons w s rest f l hw (common_rel_grf hnum hs) ih

theorem common_rels_vts {s : List Char} {l : List Fm} {l' : List (Vts.Rel Vts.Tm)} (h : CommonRels s l l') :
    Vts.RelsText s l' := by
  induction h with
  | nil w hw => exact .nil w hw
  | cons w s rest f r l l' hw hs _ ih => exact .cons w s rest r l' hw (common_rel_vts hs) ih

theorem ws_junk {w : List Char} (h : Ws w) : Vts.Junk w := by
  intro a v t
  left
  rintro rfl
  have := h '(' (by simp)
  exact absurd this (by decide)

theorem common_file_grf {num : Bool → List Char → List Char → ℚ} (hnum : Decimals num) {text : List Char}
    {l : List FileSeq} {l' : List Vts.Sequent} (h : CommonFile text l l') : FileText num text l := by
  induction h with
  | nil w hw => exact .nil w hw
  | cons w s rest q q' l l' hw hs _ ih =>
    refine .cons w s rest q l hw ?_ ih
    obtain ⟨w₁, w₂, w₃, w₄, w₅, w₆, w₇, name, a, b, la, lb, la', lb', h₁, h₂, h₃, h₄, h₅, h₆, h₇, hn, ha, hb⟩ := hs
    exact .mk w₁ w₂ w₃ w₄ w₅ w₆ w₇ name a b la lb h₁ h₂ h₃ h₄ h₅ h₆ h₇ hn.1 (common_rels_grf hnum ha)
      (common_rels_grf hnum hb)

theorem common_file_vts {text : List Char} {l : List FileSeq} {l' : List Vts.Sequent} (h : CommonFile text l l') :
    Vts.FileText text l' := by
  induction h with
  | nil w hw => exact .nil w (ws_junk hw)
  | cons w s rest q q' l l' hw hs _ ih =>
    refine .cons w s rest q' l' (ws_junk hw) ?_ ih
    obtain ⟨w₁, w₂, w₃, w₄, w₅, w₆, w₇, name, a, b, la, lb, la', lb', h₁, h₂, h₃, h₄, h₅, h₆, h₇, hn, ha, hb⟩ := hs
    exact .mk w₁ w₂ w₃ w₄ w₅ w₆ w₇ name a b la' lb' h₁ h₂ h₃ h₄ h₅ h₆ h₇ hn (common_rels_vts ha) (common_rels_vts hb)

/-! ### Meaning -/

theorem common_value {s : List Char} {t : Tm} {u : Vts.Tm} (h : CommonTerm s t u) (σ : List Char → ℝ) :
    t.value (fun s => σ s.toList) = u.value σ := by
  induction h with
  | whole ds h => simp [Tm.value, Vts.Tm.value]
  | dec ds es h h' => simp [Tm.value, Vts.Tm.value]
  | name s h => simp [Tm.value, Vts.Tm.value]
  | bin o w₁ w₂ w₃ w₄ a b ta tb ua ub h₁ h₂ h₃ h₄ hw _ _ iha ihb =>
    cases o <;> simp [BinOp.tm, BinOp.vtm, Tm.value, Vts.Tm.value, iha, ihb]
  | neg w₁ w₂ w₄ a ta ua h₁ h₂ h₄ _ iha => simp [Tm.value, Vts.Tm.value, iha]

/-- A formula of the one program and a relation of the other say the same. -/
def SameFm (f : Fm) (r : Vts.Rel Vts.Tm) : Prop :=
  ∀ σ : List Char → ℝ, f.holds (fun s => σ s.toList) ↔ Vts.relHolds r σ

/-- Sequents of the two programs have the same name and correspond formula by formula. -/
def ReadAlike (q : FileSeq) (q' : Vts.Sequent) : Prop :=
  q.name = q'.name ∧ List.Forall₂ SameFm q.ante q'.ante ∧ List.Forall₂ SameFm q.succ q'.succ

theorem common_rel_same {s : List Char} {f : Fm} {r : Vts.Rel Vts.Tm} (h : CommonRel s f r) : SameFm f r := by
  obtain ⟨w₁, w₂, w₃, w₄, a, b, op, ta, tb, ua, ub, h₁, h₂, h₃, h₄, hw₂, hw₃, ha, hb⟩ := h
  intro σ
  unfold Fm.holds Vts.relHolds
  simp only
  rw [common_value ha, common_value hb]
  cases op <;> exact Iff.rfl

theorem common_rels_same {s : List Char} {l : List Fm} {l' : List (Vts.Rel Vts.Tm)} (h : CommonRels s l l') :
    List.Forall₂ SameFm l l' := by
  induction h with
  | nil w hw => exact .nil
  | cons w s rest f r l l' hw hs _ ih => exact .cons (common_rel_same hs) ih

theorem common_file_same {text : List Char} {l : List FileSeq} {l' : List Vts.Sequent} (h : CommonFile text l l') :
    List.Forall₂ ReadAlike l l' := by
  induction h with
  | nil w hw => exact .nil
  | cons w s rest q q' l l' hw hs _ ih =>
    refine .cons ?_ ih
    obtain ⟨w₁, w₂, w₃, w₄, w₅, w₆, w₇, name, a, b, la, lb, la', lb', h₁, h₂, h₃, h₄, h₅, h₆, h₇, hn, ha, hb⟩ := hs
    exact ⟨rfl, common_rels_same ha, common_rels_same hb⟩

/-- **C129**, what holds: both programs read every file of the common syntax, and they read the same: as many sequents, in
the same order, with the same names and with formulas that are true at the same points. (The names `sympy` and `cmd` must
not occur, see C65.) That `grf_on_file` works on the sequents of `FileText` is `C74_reading`. Missing: other texts
(`C129_violated`, `C129_lost_violated`), and what the programs take the sequents for (`C129_meaning_violated`). -/
theorem C129_partial {num : Bool → List Char → List Char → ℚ} (hnum : Decimals num) (text : List Char)
    (l : List FileSeq) (l' : List Vts.Sequent) (h : CommonFile text l l')
    (hn : ∀ q ∈ l', Vts.Plain (Vts.sequentNames q)) :
    FileText num text l ∧ (∃ st, Vts.parseFile ⟨[], 0⟩ text = .ok (st, l')) ∧ List.Forall₂ ReadAlike l l' :=
  ⟨common_file_grf hnum h, Vts.C48_reading text l' (common_file_vts h) hn, common_file_same h⟩

/-! ### Verdicts -/

theorem common_defined {s : List Char} {t : Tm} {u : Vts.Tm} (h : CommonTerm s t u) (hp : u.Poly) (σ : String → ℝ) :
    t.defined σ := by
  induction h with
  | whole ds h => trivial
  | dec ds es h h' => trivial
  | name s h => trivial
  | bin o w₁ w₂ w₃ w₄ a b ta tb ua ub h₁ h₂ h₃ h₄ hw _ _ iha ihb =>
    cases o with
    | add => exact ⟨iha hp.1, ihb hp.2⟩
    | mul => exact ⟨iha hp.1, ihb hp.2⟩
    | sub => exact ⟨iha hp.1, ihb hp.2⟩
    | div => exact hp.elim
  | neg w₁ w₂ w₄ a ta ua h₁ h₂ h₄ _ iha => exact iha hp

theorem common_rels_defined {s : List Char} {l : List Fm} {l' : List (Vts.Rel Vts.Tm)} (h : CommonRels s l l')
    (hp : ∀ r ∈ l', r.lhs.Poly ∧ r.rhs.Poly) (σ : String → ℝ) : ∀ f ∈ l, f.defined σ := by
  induction h with
  | nil w hw => simp
  | cons w s rest f r l l' hw hs _ ih =>
    intro g hg
    rcases List.mem_cons.1 hg with rfl | hg
    · obtain ⟨w₁, w₂, w₃, w₄, a, b, op, ta, tb, ua, ub, h₁, h₂, h₃, h₄, hw₂, hw₃, ha, hb⟩ := hs
      have := hp _ (List.mem_cons_self ..)
      exact ⟨common_defined ha this.1 σ, common_defined hb this.2 σ⟩
    · exact ih (fun r hr => hp r (List.mem_cons_of_mem _ hr)) g hg

theorem common_file_defined {text : List Char} {l : List FileSeq} {l' : List Vts.Sequent} (h : CommonFile text l l') :
    List.Forall₂ (fun (q : FileSeq) (q' : Vts.Sequent) => (∀ r ∈ q'.ante ++ q'.succ, r.lhs.Poly ∧ r.rhs.Poly) →
      ∀ σ : String → ℝ, ∀ f ∈ q.ante ++ q.succ, f.defined σ) l l' := by
  induction h with
  | nil w hw => exact .nil
  | cons w s rest q q' l l' hw hs _ ih =>
    refine .cons ?_ ih
    obtain ⟨w₁, w₂, w₃, w₄, w₅, w₆, w₇, name, a, b, la, lb, la', lb', h₁, h₂, h₃, h₄, h₅, h₆, h₇, hn, ha, hb⟩ := hs
    intro hp σ f hf
    rcases List.mem_append.1 hf with hf | hf
    · exact common_rels_defined ha (fun r hr => hp r (List.mem_append_left _ hr)) σ f hf
    · exact common_rels_defined hb (fun r hr => hp r (List.mem_append_right _ hr)) σ f hf

theorem forall₂_last {α β : Type} {R : α → β → Prop} {l : List α} {a : α} {l' : List β} {b : β}
    (h : List.Forall₂ R (l ++ [a]) (l' ++ [b])) : R a b := by
  have := List.forall₂_reverse_iff.2 h
  simp only [List.reverse_append, List.reverse_cons, List.reverse_nil, List.nil_append, List.singleton_append,
    List.forall₂_cons] at this
  exact this.1

theorem forall₂_get? {α β : Type} {R : α → β → Prop} {l : List α} {l' : List β} (h : List.Forall₂ R l l') {i : ℕ} {a : α}
    (hi : l[i]? = some a) : ∃ b ∈ l', R a b := by
  induction h generalizing i with
  | nil => simp at hi
  | cons hab _ ih =>
    cases i with
    | zero =>
      have := Option.some.inj hi
      exact ⟨_, List.mem_cons_self .., this ▸ hab⟩
    | succ i =>
      obtain ⟨b, hb, hr⟩ := ih (i := i) (by simpa using hi)
      exact ⟨b, List.mem_cons_of_mem _ hb, hr⟩

/-- **C129**, verdicts: if `grf_on_file` returns for a file of the common syntax, its decision core being sound, and `vts`
reaches verdicts for it, then the verdict of `vts` on the last sequent, the one that `grf_on_file` reports on, is that it
is valid. The sequents are between polynomials with whole numbers, each in one variable, and the last one has one formula in
its succedent. (That `vts` reaches verdicts is the subject of `C68_reached`.) -/
theorem C129_verdicts (E : SmtEnv ℝ) (hnum : Decimals E.num) (hq : QuotOK ℝ E.quot)
    (hS : ∀ n, SageOK (E.core n).toSage) (hC : ∀ n, CoreSound (E.core n)) (S : Vts.SympyEnv) {V : Vts.Env ℤ ℝ}
    (hV : Vts.EnvOK V (Int.castRingHom ℝ)) (text : List Char) (l : List FileSeq) (q : FileSeq) (l' : List Vts.Sequent)
    (q' : Vts.Sequent) (h : CommonFile text (l ++ [q]) (l' ++ [q']))
    (hn : ∀ q ∈ l' ++ [q'], Vts.Plain (Vts.sequentNames q))
    (h1 : ∀ q ∈ l' ++ [q'], ∃ v, ∀ n ∈ Vts.sequentNames q, n = v)
    (hp : ∀ q ∈ l' ++ [q'], ∀ r ∈ q.ante ++ q.succ, r.lhs.Poly ∧ r.rhs.Poly)
    (he : ∀ q ∈ l' ++ [q'], ∀ r ∈ q.ante ++ q.succ, ¬ Vts.Evaluated S r) (hs : q.succ.length = 1)
    (interactive out : Bool) (lines : List (List Char)) (o : SmtOut)
    (hg : grfOnFile E interactive out lines text = .ok o) (vs : List Bool) (hv : Vts.verdicts S V text = .ok vs) :
    vs.getLast? = some true := by
  have hvs := Vts.C68_end_to_end S hV text (l' ++ [q']) (common_file_vts h) hn h1 hp he vs hv
  obtain ⟨as, ss, -, -, hsound⟩ := (C74_sound E hq hS hC interactive out lines text o hg).2 l q (common_file_grf hnum h)
  have hsame := forall₂_last (common_file_same h)
  have hdef := forall₂_last (common_file_defined h) (hp q' (by simp))
  have hvalid : ∀ env, Vts.sequentHolds q' env := by
    intro env ha r hr
    obtain ⟨-, hA, hB⟩ := hsame
    obtain ⟨i, f, -, hi, hf⟩ := hsound (fun s => env s.toList) (hdef _) (fun i f _ hi => by
      obtain ⟨r, hr, hfr⟩ := forall₂_get? hA hi
      exact (hfr env).2 (ha r hr))
    obtain ⟨f', hf'⟩ := List.length_eq_one_iff.1 hs
    rw [hf'] at hB hi
    obtain ⟨r', hr'⟩ : ∃ r', q'.succ = [r'] := by
      cases hx : q'.succ with
      | nil => rw [hx] at hB; cases hB
      | cons a t =>
        rw [hx] at hB
        cases hB with
        | cons _ ht => cases ht; exact ⟨a, rfl⟩
    rw [hr'] at hB hr
    rw [List.mem_singleton.1 hr]
    have hff : f = f' := by
      cases i with
      | zero => exact (Option.some.inj hi).symm
      | succ i => simp at hi
    have hB' := (List.forall₂_cons.1 hB).1
    exact (hB' env).1 (hff ▸ hf)
  have hrev := List.forall₂_reverse_iff.2 hvs
  rw [List.reverse_append] at hrev
  cases hx : vs.reverse with
  | nil => rw [hx] at hrev; cases hrev
  | cons v t =>
    rw [hx] at hrev
    have hv' : v = true := (List.forall₂_cons.1 hrev).1.2 hvalid
    rw [← List.head?_reverse, hx, hv']
    rfl

/-! ### Violations -/

/-- `1` and `0` are names for `grf_on_file` -/
theorem word_digit {c : Char} (h : isNum c = true) : Word [c] := by
  refine ⟨by simp, fun d hd => ?_, fun ds r hds e => ?_⟩
  · rw [List.mem_singleton.1 hd]
    exact isWord_iff.1 (isWord_of_isNum h)
  · cases ds with
    | nil => exact hds.1 rfl
    | cons a l => simp at e

/-- **C129** is violated: numbers without a dot are numbers for the one program and names of variables for the other. Both
read the file with the sequent `1 > 0`; what `vts` reads is true everywhere, what `grf_on_file` reads is not. -/
theorem C129_violated (num : Bool → List Char → List Char → ℚ) : ∃ (text : List Char) (q : FileSeq) (q' : Vts.Sequent),
    FileText num text [q] ∧ (∃ st, Vts.parseFile ⟨[], 0⟩ text = .ok (st, [q'])) ∧ q.ante = [] ∧
    (∀ σ : List Char → ℝ, Vts.sequentHolds q' σ) ∧ ∃ σ : String → ℝ, ∀ f ∈ q.succ, ¬ f.holds σ := by
  refine ⟨"(sequent \"s\" (antecedent) (succedent (> 1 0)))".toList,
    ⟨['s'], [], [⟨.gt, .word (String.ofList ['1']), .word (String.ofList ['0'])⟩]⟩, ⟨['s'], [], [⟨.gt, .int 1, .int 0⟩]⟩,
    ?_, ?_, rfl, ?_, ?_⟩
  · have hr : RelText num "(> 1 0)".toList ⟨.gt, .word (String.ofList ['1']), .word (String.ofList ['0'])⟩ :=
      RelText.mk [] [' '] [' '] [] ['1'] ['0'] .gt _ _ ws_zero ws_one ws_one ws_zero (.word _ (word_digit (by decide)))
        (.word _ (word_digit (by decide))) (fun c r h => by cases h; rw [← kwChar_iff]; decide)
        (fun c r h => by cases h; rw [← isWord_iff]; decide)
    exact FileText.cons [] _ _ _ _ ws_zero
      (SequentText.mk [] [' '] [' '] [] [' '] [] [] ['s'] _ _ _ _ ws_zero ws_one ws_one ws_zero ws_one ws_zero ws_zero
        (by decide) (RelsText.nil [] ws_zero) (RelsText.cons [' '] _ _ _ _ ws_one hr (RelsText.nil [] ws_zero)))
      (FileText.nil [] ws_zero)
  · exact ⟨⟨[], 2⟩, by decide +kernel⟩
  · intro σ _ r hr
    rw [List.mem_singleton.1 hr]
    simp [Vts.relHolds, Vts.RelKind.holds, Vts.Tm.value]
  · refine ⟨fun _ => 0, fun f hf => ?_⟩
    rw [List.mem_singleton.1 hf]
    simp [Fm.holds, rel, Tm.value]

/-- **C129** is violated also by negative numbers: a sequent with `~1.0` is read by `grf_on_file`, and `vts` does not find
it, without any message. -/
theorem C129_lost_violated (num : Bool → List Char → List Char → ℚ) : ∃ (text : List Char) (q : FileSeq),
    FileText num text [q] ∧ ∃ st, Vts.parseFile ⟨[], 0⟩ text = .ok (st, []) := by
  refine ⟨"(sequent \"s\" (antecedent) (succedent (> x ~1.0)))".toList,
    ⟨['s'], [], [⟨.gt, .word (String.ofList ['x']), .num (num true ['1'] ['0'])⟩]⟩, ?_, ⟨⟨[], 1⟩, by decide +kernel⟩⟩
  have hr : RelText num "(> x ~1.0)".toList ⟨.gt, .word (String.ofList ['x']), .num (num true ['1'] ['0'])⟩ :=
    RelText.mk [] [' '] [' '] [] ['x'] "~1.0".toList .gt _ _ ws_zero ws_one ws_one ws_zero (.word _ word_x)
      (TermText.num true ['1'] ['0'] (digits_test (by decide)) (Or.inr (digits_test (by decide))))
      (fun c r h => by cases h; rw [← kwChar_iff]; decide) (fun c r h => by cases h; rw [← isWord_iff]; decide)
  exact FileText.cons [] _ _ _ _ ws_zero
    (SequentText.mk [] [' '] [' '] [] [' '] [] [] ['s'] _ _ _ _ ws_zero ws_one ws_one ws_zero ws_one ws_zero ws_zero
      (by decide) (RelsText.nil [] ws_zero) (RelsText.cons [' '] _ _ _ _ ws_one hr (RelsText.nil [] ws_zero)))
    (FileText.nil [] ws_zero)

/-- **C129** is violated also by text around the sequents, as in the files below `GRF/Examples/MetiTarski`: `vts` reads the
sequent, `grf_on_file` raises an exception whatever the surroundings. -/
theorem C129_around_violated {K : Type} [Field K] [LinearOrder K] [IsStrictOrderedRing K] : ∃ (text : List Char) (q' : Vts.Sequent),
    (∃ st, Vts.parseFile ⟨[], 0⟩ text = .ok (st, [q'])) ∧
    ∀ (E : SmtEnv K) (interactive out : Bool) (lines : List (List Char)),
      ∃ e, grfOnFile E interactive out lines text = .error e := by
  refine ⟨"%(sequent \"s\" (antecedent) (succedent (> x 0.)))".toList, ⟨['s'], [], [⟨.gt, .var ['x'], .int 0⟩]⟩,
    ⟨⟨[], 2⟩, by decide +kernel⟩, fun E interactive out lines => ?_⟩
  cases h : grfOnFile E interactive out lines "%(sequent \"s\" (antecedent) (succedent (> x 0.)))".toList with
  | error e => exact ⟨e, rfl⟩
  | ok o =>
    exfalso
    obtain ⟨l, hl, ht⟩ := C74_exact E interactive out lines _ o h
    generalize hx : "%(sequent \"s\" (antecedent) (succedent (> x 0.)))".toList = t at ht
    have hx' : ∃ r, t = '%' :: r := by rw [← hx]; exact ⟨_, rfl⟩
    obtain ⟨r, rfl⟩ := hx'
    clear hx h
    generalize hy : '%' :: r = t at ht
    cases ht with
    | nil w hw => exact hl rfl
    | cons w s rest q l hw hs _ =>
      cases w with
      | nil =>
        cases hs
        simp at hy
      | cons d w =>
        simp only [List.cons_append, List.cons.injEq] at hy
        have := hw d (by simp)
        rw [← hy.1] at this
        exact absurd this (by decide)

/-! ### The meaning of several formulas in the succedent -/

/-- A file with one sequent, `x > 0 ⊢ x <= 1, x >= 1`. -/
def splitText : List Char := "(sequent \"s\" (antecedent (> x 0.)) (succedent (<= x 1.) (>= x 1.)))".toList

/-- the sequent -/
def splitSeq : FileSeq :=
  ⟨['s'], [⟨.gt, .word (String.ofList ['x']), .num 0⟩],
    [⟨.le, .word (String.ofList ['x']), .num 1⟩, ⟨.ge, .word (String.ofList ['x']), .num 1⟩]⟩

/-- the sequent for the other program -/
def splitSeq' : Vts.Sequent := ⟨['s'], [⟨.gt, .var ['x'], .int 0⟩], [⟨.le, .var ['x'], .int 1⟩, ⟨.ge, .var ['x'], .int 1⟩]⟩

theorem common_x : CommonTerm ['x'] (.word (String.ofList ['x'])) (.var ['x']) :=
  .name _ ⟨'x', [], rfl, by unfold Letter; decide, by simp⟩

theorem common_whole {c : Char} (h : isNum c = true) (n : ℕ) (hn : decimal [c] = n) :
    CommonTerm [c, '.'] (.num n) (.int n) := by
  have := CommonTerm.whole [c] (digits_test h)
  rw [hn] at this
  exact this

theorem splitText_common : CommonFile splitText [splitSeq] [splitSeq'] := by
  have n0 := common_whole (c := '0') (by decide) 0 (by decide +kernel)
  have n1 := common_whole (c := '1') (by decide) 1 (by decide +kernel)
  have r0 := CommonRel.mk [] [' '] [' '] [] _ _ .gt _ _ _ _ ws_zero ws_one ws_one ws_zero (by decide) (by decide) common_x n0
  have r1 := CommonRel.mk [] [' '] [' '] [] _ _ .le _ _ _ _ ws_zero ws_one ws_one ws_zero (by decide) (by decide) common_x n1
  have r2 := CommonRel.mk [] [' '] [' '] [] _ _ .ge _ _ _ _ ws_zero ws_one ws_one ws_zero (by decide) (by decide) common_x n1
  have l0 := CommonRels.cons [' '] _ _ _ _ _ _ ws_one r0 (.nil [] ws_zero)
  have l1 := CommonRels.cons [' '] _ _ _ _ _ _ ws_one r1 (.cons [' '] _ _ _ _ _ _ ws_one r2 (.nil [] ws_zero))
  have q := CommonSequent.mk [] [' '] [' '] [] [' '] [] [] ['s'] _ _ _ _ _ _ ws_zero ws_one ws_one ws_zero ws_one ws_zero
    ws_zero (by decide) l0 l1
  have f := CommonFile.cons [] _ _ _ _ _ _ ws_zero q (.nil [] ws_zero)
  simp only [Nat.cast_zero, Nat.cast_one] at f
  exact f

theorem splitSeq_read (quot : MPoly → MPoly → Option MPoly) : ∃ as c ss c',
    readFms quot Ctx.init splitSeq.ante = .ok (as, c) ∧ readFms quot c splitSeq.succ = .ok (ss, c') :=
  ⟨_, _, _, _, rfl, rfl⟩

/-- **C129** is violated also by what the programs take a sequent for, even if they read the same formulas: for
`grf_on_file` some formula of the succedent has to follow, and the problem that it decides is valid; for `vts` all
of them have to follow, and its verdict is that the sequent is not valid, whatever sympy and the libraries do. Of the 33
files in `GRF/Examples/HidingProblems`, 21 have several formulas in the succedent. -/
theorem C129_meaning_violated : ∃ (text : List Char) (q : FileSeq) (q' : Vts.Sequent), CommonFile text [q] [q'] ∧
    (∀ quot, QuotOK ℝ quot → ∃ as c ss c' st, readFms quot Ctx.init q.ante = .ok (as, c) ∧
      readFms quot c q.succ = .ok (ss, c') ∧ seqState as ss = .ok st ∧
      ∀ ρ : ℕ → ℝ, (∀ h ∈ st.hyps, h.holds ρ) → st.goal.main.holds ρ) ∧
    ∀ (S : Vts.SympyEnv) (_ : Vts.SympyOK S) (V : Vts.Env ℤ ℝ) (_ : Vts.EnvOK V (Int.castRingHom ℝ)),
      Vts.verdicts S V text = .ok [false] := by
  refine ⟨splitText, splitSeq, splitSeq', splitText_common, fun quot hq => ?_, fun S hS V hV => ?_⟩
  · obtain ⟨as, c, ss, c', h1, h2⟩ := splitSeq_read quot
    obtain ⟨k1, k2, k3, k4⟩ := readFms_ok hq _ _ _ _ init_ok h1
    obtain ⟨m1, m2, m3, m4⟩ := readFms_ok hq _ _ _ _ k1 h2
    have hss : ss ≠ [] := by
      rintro rfl
      simp [splitSeq] at m3
    obtain ⟨st, hst, -, -, hiff⟩ := (C44_reduction (K := ℝ) as ss).2 hss
    refine ⟨as, c, ss, c', st, h1, h2, hst, fun ρ => (hiff ρ).2 ?_⟩
    intro _
    have hlen : ss.length = 2 := m3
    obtain ⟨a, b, rfl⟩ := List.length_eq_two.1 hlen
    rcases le_total (nameVal c' ρ (String.ofList ['x'])) 1 with hx | hx
    · refine ⟨a, by simp, (m4 c' (fun _ _ h => h) ρ 0 _ a rfl rfl ⟨trivial, trivial⟩).2 ?_⟩
      simpa [Fm.holds, rel, Tm.value] using hx
    · refine ⟨b, by simp, (m4 c' (fun _ _ h => h) ρ 1 _ b rfl rfl ⟨trivial, trivial⟩).2 ?_⟩
      simpa [Fm.holds, rel, Tm.value] using hx
  · have hnames : ∀ q ∈ [splitSeq'], ∀ n ∈ Vts.sequentNames q, n = ['x'] := by
      intro q hq n hn
      rw [List.mem_singleton.1 hq] at hn
      have : n ∈ [['x'], ['x'], ['x']] := hn
      simpa using this
    have hplain : ∀ q ∈ [splitSeq'], Vts.Plain (Vts.sequentNames q) := by
      intro q hq n hn
      rw [hnames q hq n hn]
      decide
    have hpoly : ∀ q ∈ [splitSeq'], ∀ r ∈ q.ante ++ q.succ, (r.lhs.Poly ∧ r.rhs.Poly) ∧ ∃ p : Polynomial ℚ,
        0 < p.natDegree ∧ p.natDegree ≤ 5 ∧
        ∀ a : ℝ, r.lhs.value (fun _ => a) - r.rhs.value (fun _ => a) = Polynomial.aeval a p := by
      intro q hq r hr
      rw [List.mem_singleton.1 hq] at hr
      simp only [splitSeq', List.cons_append, List.nil_append, List.mem_cons, List.not_mem_nil, or_false] at hr
      rcases hr with rfl | rfl | rfl
      · exact ⟨⟨trivial, trivial⟩, Polynomial.X, by simp, by simp, fun a => by simp [Vts.Tm.value]⟩
      all_goals
        refine ⟨⟨trivial, trivial⟩, Polynomial.X - Polynomial.C 1, ?_, ?_, fun a => by simp [Vts.Tm.value]⟩
        · rw [Polynomial.natDegree_X_sub_C]; norm_num
        · rw [Polynomial.natDegree_X_sub_C]; norm_num
    obtain ⟨hev, vs, hvs⟩ := Vts.C68_reached S hS hV splitText [splitSeq'] (common_file_vts splitText_common) hplain
      (by intro q hq; rw [List.mem_singleton.1 hq]; exact ⟨by simp [splitSeq'], by simp [splitSeq']⟩) hpoly
    have := Vts.C68_end_to_end S hV splitText [splitSeq'] (common_file_vts splitText_common) hplain
      (fun q hq => ⟨_, hnames q hq⟩) (fun q hq r hr => (hpoly q hq r hr).1) hev vs hvs
    cases this with
    | cons hv ht =>
      rename_i v t
      cases ht
      have hne : ¬ ∀ env, Vts.sequentHolds splitSeq' env := by
        intro h
        have := h (fun _ => 2) (by
          intro r hr
          rw [List.mem_singleton.1 hr]
          simp [Vts.relHolds, Vts.RelKind.holds, Vts.Tm.value]) ⟨.le, .var ['x'], .int 1⟩ (by simp [splitSeq'])
        simp [Vts.relHolds, Vts.RelKind.holds, Vts.Tm.value] at this
      cases v with
      | true => exact absurd (hv.1 rfl) hne
      | false => exact hvs

theorem testNum_decimals : Decimals testNum := by
  intro ds es _ _
  have h : decimal (ds ++ es) = decimal es + 10 ^ es.length * decimal ds := by
    simp [decimal, Nat.ofDigits_append]
  have h0 : (10 : ℚ) ^ es.length ≠ 0 := by positivity
  rw [testNum, h]
  push_cast
  field_simp
  ring

/-- The file is in the common syntax, and both programs read it. -/
example : FileText testNum splitText [splitSeq] ∧ ∃ st, Vts.parseFile ⟨[], 0⟩ splitText = .ok (st, [splitSeq']) := by
  have h := C129_partial (num := testNum) testNum_decimals splitText _ _ splitText_common (by
    intro q hq n hn
    rw [List.mem_singleton.1 hq] at hn
    have : n ∈ [['x'], ['x'], ['x']] := hn
    have : n = ['x'] := by simpa using this
    rw [this]
    decide)
  exact ⟨h.1, h.2.1⟩

/-! ### A file on which both verdicts are reached -/

/-- A file with one sequent, `x > 0 ⊢ x * x >= 0`. -/
def squareText : List Char := "(sequent \"s\" (antecedent (> x 0.)) (succedent (>= (* x x) 0.)))".toList

/-- the sequent -/
def squareSeq : FileSeq :=
  ⟨['s'], [⟨.gt, .word (String.ofList ['x']), .num 0⟩],
    [⟨.ge, .mul (.word (String.ofList ['x'])) (.word (String.ofList ['x'])), .num 0⟩]⟩

/-- the sequent for the other program -/
def squareSeq' : Vts.Sequent :=
  ⟨['s'], [⟨.gt, .var ['x'], .int 0⟩], [⟨.ge, .mul (.var ['x']) (.var ['x']), .int 0⟩]⟩

theorem squareText_common : CommonFile squareText [squareSeq] [squareSeq'] := by
  have n0 := common_whole (c := '0') (by decide) 0 (by decide +kernel)
  have xx := CommonTerm.bin .mul [] [' '] [' '] [] _ _ _ _ _ _ ws_zero ws_one ws_one ws_zero (by decide) common_x common_x
  have r0 := CommonRel.mk [] [' '] [' '] [] _ _ .gt _ _ _ _ ws_zero ws_one ws_one ws_zero (by decide) (by decide) common_x n0
  have r1 := CommonRel.mk [] [' '] [' '] [] _ _ .ge _ _ _ _ ws_zero ws_one ws_one ws_zero (by decide) (by decide) xx n0
  have l0 := CommonRels.cons [' '] _ _ _ _ _ _ ws_one r0 (.nil [] ws_zero)
  have l1 := CommonRels.cons [' '] _ _ _ _ _ _ ws_one r1 (.nil [] ws_zero)
  have q := CommonSequent.mk [] [' '] [' '] [] [' '] [] [] ['s'] _ _ _ _ _ _ ws_zero ws_one ws_one ws_zero ws_one ws_zero
    ws_zero (by decide) l0 l1
  have f := CommonFile.cons [] _ _ _ _ _ _ ws_zero q (.nil [] ws_zero)
  simp only [Nat.cast_zero] at f
  exact f

/-- the polynomial of the goal -/
def squareGoalPoly : MPoly := ((MPoly.var 0).mul (MPoly.var 0)).sub (MPoly.const 0)

/-- A core over the reals that proves this goal and raises an exception for others. -/
noncomputable def squareTextCore : Core ℝ :=
  { (testSage (K := ℝ)) with
    samples := fun _ st => if st.goal.main.poly = squareGoalPoly ∧ st.goal.main.op = .ge then .ok [] else .error .assertion
    more := fun _ _ _ => .ok []
    solve := bruteSolve }

theorem squareTextCore_sound : CoreSound squareTextCore := by
  intro n st ds h _ ρ _
  change (if st.goal.main.poly = squareGoalPoly ∧ st.goal.main.op = .ge then .ok [] else .error .assertion :
    Except GErr (List (Dict ℝ))) = .ok ds at h
  split at h
  · next hg =>
    unfold Atom.holds
    rw [hg.1, hg.2]
    show MPoly.eval ρ squareGoalPoly ≥ 0
    simp only [squareGoalPoly, MPoly.eval_sub, MPoly.eval_mul, MPoly.eval_var, MPoly.eval_const]
    simpa using mul_self_nonneg (ρ 0)
  · cases h

theorem squareTextSage_ok : SageOK (testSage (K := ℝ)) := by
  refine ⟨?_, ?_, ?_⟩
  · intro p B ρ h
    show MPoly.eval ρ (if p ∈ B then [] else p) = _
    split
    · next hp => rw [h p hp, MPoly.eval_nil]
    · rfl
  · intro ps ρ; rfl
  · intro ps h; exact h

/-- surroundings for the example -/
noncomputable def squareTextEnv : SmtEnv ℝ := ⟨fun _ _ => none, testNum, fun _ => squareTextCore, testInt, fun a s => (a, s)⟩

/-- The hypotheses of `C129_verdicts` are met by this file: `grf_on_file` returns, and so does `vts`. -/
example (S : Vts.SympyEnv) (hS : Vts.SympyOK S) {V : Vts.Env ℤ ℝ} (hV : Vts.EnvOK V (Int.castRingHom ℝ)) :
    ∃ o vs, grfOnFile squareTextEnv false false [] squareText = .ok o ∧ Vts.verdicts S V squareText = .ok vs ∧
      vs.getLast? = some true := by
  have hnames : ∀ q ∈ [squareSeq'], ∀ n ∈ Vts.sequentNames q, n = ['x'] := by
    intro q hq n hn
    rw [List.mem_singleton.1 hq] at hn
    have : n ∈ [['x'], ['x'], ['x']] := hn
    simpa using this
  have hplain : ∀ q ∈ [squareSeq'], Vts.Plain (Vts.sequentNames q) := by
    intro q hq n hn
    rw [hnames q hq n hn]
    decide
  have hpoly : ∀ q ∈ [squareSeq'], ∀ r ∈ q.ante ++ q.succ, (r.lhs.Poly ∧ r.rhs.Poly) ∧ ∃ p : Polynomial ℚ,
      0 < p.natDegree ∧ p.natDegree ≤ 5 ∧
      ∀ a : ℝ, r.lhs.value (fun _ => a) - r.rhs.value (fun _ => a) = Polynomial.aeval a p := by
    intro q hq r hr
    rw [List.mem_singleton.1 hq] at hr
    simp only [squareSeq', List.cons_append, List.nil_append, List.mem_cons, List.not_mem_nil, or_false] at hr
    rcases hr with rfl | rfl
    · exact ⟨⟨trivial, trivial⟩, Polynomial.X, by simp, by simp, fun a => by simp [Vts.Tm.value]⟩
    · exact ⟨⟨⟨trivial, trivial⟩, trivial⟩, Polynomial.X ^ 2, by simp, by simp,
        fun a => by simp [Vts.Tm.value]; ring⟩
  obtain ⟨hev, vs, hvs⟩ := Vts.C68_reached S hS hV squareText [squareSeq'] (common_file_vts squareText_common) hplain
    (by intro q hq; rw [List.mem_singleton.1 hq]; exact ⟨by simp [squareSeq'], by simp [squareSeq']⟩) hpoly
  have hrun : (grfOnFile squareTextEnv false false [] squareText).isOk = true := by decide +kernel
  cases hg : grfOnFile squareTextEnv false false [] squareText with
  | error e => rw [hg] at hrun; cases hrun
  | ok o =>
    refine ⟨o, vs, rfl, hvs, ?_⟩
    exact C129_verdicts squareTextEnv testNum_decimals (by intro p d q h; cases h) (fun _ => squareTextSage_ok)
      (fun _ => squareTextCore_sound) S hV squareText [] squareSeq [] squareSeq' squareText_common hplain
      (fun q hq => ⟨_, hnames q hq⟩) (fun q hq r hr => (hpoly q hq r hr).1) hev rfl false false [] o hg vs hvs

end Verif.Grf
