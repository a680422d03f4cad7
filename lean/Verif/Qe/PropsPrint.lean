import Verif.Qe.PrintModel
import Verif.Qe.PropsReadme

/-!
# C123: the answer printed by the Muchnik procedures says what is returned
-/

set_option linter.unusedSectionVars false

namespace Verif.Qe

variable {P : Type}

/-- The way of printing polynomials: different polynomials are printed differently, on one line and without the symbols
of relations and connectives. -/
structure GoodStr (str : P → List Char) : Prop where
  inj : ∀ p q, str p = str q → p = q
  chars : ∀ p, ∀ c ∈ str p, c ∉ ['\n', '&', '<', '>', '=', '!']

theorem foldl_sep (sep : List Char) (cs : List (List Char)) (c : List Char) :
    cs.foldl (fun l r => l ++ sep ++ r) c = c ++ cs.flatMap (sep ++ ·) := by
  induction cs generalizing c with
  | nil => simp
  | cons a cs ih => rw [List.foldl_cons, ih]; simp

theorem cut {α : Type} [DecidableEq α] {x : α} {a b s t : List α} (ha : x ∉ a) (hb : x ∉ b)
    (h : a ++ x :: s = b ++ x :: t) : a = b ∧ s = t := by
  induction a generalizing b with
  | nil =>
    cases b with
    | nil => simpa using h
    | cons y b =>
      simp only [List.nil_append, List.cons_append, List.cons.injEq] at h
      exact absurd (by simp [h.1]) hb
  | cons z a ih =>
    cases b with
    | nil =>
      simp only [List.nil_append, List.cons_append, List.cons.injEq] at h
      exact absurd (by simp [h.1]) ha
    | cons y b =>
      simp only [List.cons_append, List.cons.injEq] at h
      have := ih (b := b) (fun h' => ha (by simp [h'])) (fun h' => hb (by simp [h'])) h.2
      exact ⟨by rw [h.1, this.1], this.2⟩

/-- lines of a conjunction up to its end -/
theorem conj_cut {c c' : List Char} {cs cs' : List (List Char)} {s t : List Char}
    (h1 : ∀ l ∈ c :: cs, '\n' ∉ l ∧ '&' ∉ l) (h2 : ∀ l ∈ c' :: cs', '\n' ∉ l ∧ '&' ∉ l)
    (h : c ++ cs.flatMap (" & \n  ".toList ++ ·) ++ "\n)".toList ++ s =
      c' ++ cs'.flatMap (" & \n  ".toList ++ ·) ++ "\n)".toList ++ t) : c :: cs = c' :: cs' ∧ s = t := by
  induction cs generalizing c c' cs' with
  | nil =>
    cases cs' with
    | nil =>
      have := cut (x := '\n') (h1 c (by simp)).1 (h2 c' (by simp)).1 (s := ')' :: s) (t := ')' :: t) (by simpa using h)
      simpa using this
    | cons d ds =>
      have := cut (x := '\n') (a := c) (b := c' ++ [' ', '&', ' ']) (h1 c (by simp)).1
        (by have := (h2 c' (by simp)).1; simp [this]) (s := ')' :: s)
        (t := ' ' :: ' ' :: (d ++ ds.flatMap (" & \n  ".toList ++ ·) ++ "\n)".toList ++ t)) (by simpa using h)
      exact absurd (by rw [this.1]; simp) (h1 c (by simp)).2
  | cons d ds ih =>
    cases cs' with
    | nil =>
      have := cut (x := '\n') (a := c ++ [' ', '&', ' ']) (b := c')
        (by have := (h1 c (by simp)).1; simp [this]) (h2 c' (by simp)).1
        (s := ' ' :: ' ' :: (d ++ ds.flatMap (" & \n  ".toList ++ ·) ++ "\n)".toList ++ s)) (t := ')' :: t) (by simpa using h)
      exact absurd (by rw [← this.1]; simp) (h2 c' (by simp)).2
    | cons d' ds' =>
      have := cut (x := '\n') (a := c ++ [' ', '&', ' ']) (b := c' ++ [' ', '&', ' '])
        (by have := (h1 c (by simp)).1; simp [this]) (by have := (h2 c' (by simp)).1; simp [this])
        (s := ' ' :: ' ' :: (d ++ ds.flatMap (" & \n  ".toList ++ ·) ++ "\n)".toList ++ s))
        (t := ' ' :: ' ' :: (d' ++ ds'.flatMap (" & \n  ".toList ++ ·) ++ "\n)".toList ++ t)) (by simpa using h)
      have hc : c = c' := List.append_cancel_right this.1
      have hr := ih (c := d) (c' := d') (cs' := ds') (fun l hl => h1 l (List.mem_cons_of_mem _ hl))
        (fun l hl => h2 l (List.mem_cons_of_mem _ hl)) (by simpa using this.2)
      exact ⟨by rw [hc, hr.1], hr.2⟩

theorem conjText_eq {str : P → List Char} {lookup : List (List Char)} {d : List (List P)} {t : List Char}
    (h : conjText str lookup d = some t) : ∃ c cs, conjLits str lookup d = c :: cs ∧
      t = "(\n  ".toList ++ (c ++ cs.flatMap (" & \n  ".toList ++ ·) ++ "\n)".toList) := by
  unfold conjText at h
  cases hl : conjLits str lookup d with
  | nil => rw [hl] at h; simp [reduceWith] at h
  | cons c cs =>
    rw [hl] at h
    refine ⟨c, cs, rfl, ?_⟩
    simp only [reduceWith, foldl_sep, Option.bind_eq_bind, Option.bind_some, Option.some.injEq] at h
    rw [← h, List.append_assoc]

/-- a list of conjunctions -/
theorem disj_cut {str : P → List Char} {lookup : List (List Char)}
    (hl : ∀ d : List (List P), ∀ l ∈ conjLits str lookup d, '\n' ∉ l ∧ '&' ∉ l) {data data' : List (List (List P))}
    {ds ds' : List (List Char)} (h1 : data.mapM (conjText str lookup) = some ds)
    (h2 : data'.mapM (conjText str lookup) = some ds') {s : List Char} (hs : reduceWith " | \n".toList ds = some s)
    (hs' : reduceWith " | \n".toList ds' = some s) :
    List.Forall₂ (fun d d' => conjLits str lookup d = conjLits str lookup d') data data' := by
  have main : ∀ (data data' : List (List (List P))) (ds ds' : List (List Char)), data.mapM (conjText str lookup) = some ds →
      data'.mapM (conjText str lookup) = some ds' → ds.flatMap (" | \n".toList ++ ·) = ds'.flatMap (" | \n".toList ++ ·) →
      List.Forall₂ (fun d d' => conjLits str lookup d = conjLits str lookup d') data data' := by
    intro data
    induction data with
    | nil =>
      intro data' ds ds' h1 h2 h
      cases h1
      cases data' with
      | nil => exact .nil
      | cons d' data' =>
        rw [List.mapM_cons] at h2
        simp only [Option.bind_eq_bind, Option.bind_eq_some_iff] at h2
        obtain ⟨a, -, as, -, h3⟩ := h2
        cases h3
        simp at h
    | cons d data ih =>
      intro data' ds ds' h1 h2 h
      rw [List.mapM_cons] at h1
      simp only [Option.bind_eq_bind, Option.bind_eq_some_iff] at h1
      obtain ⟨a, ha, as, has, h3⟩ := h1
      cases h3
      cases data' with
      | nil => cases h2; simp at h
      | cons d' data' =>
        rw [List.mapM_cons] at h2
        simp only [Option.bind_eq_bind, Option.bind_eq_some_iff] at h2
        obtain ⟨a', ha', as', has', h3⟩ := h2
        cases h3
        obtain ⟨c, cs, hc, rfl⟩ := conjText_eq ha
        obtain ⟨c', cs', hc', rfl⟩ := conjText_eq ha'
        have h4 := conj_cut (c := c) (cs := cs) (c' := c') (cs' := cs') (s := as.flatMap (" | \n".toList ++ ·))
          (t := as'.flatMap (" | \n".toList ++ ·)) (by rw [← hc]; exact hl d) (by rw [← hc']; exact hl d') (by simpa using h)
        exact .cons (by rw [hc, hc', h4.1]) (ih data' as as' has has' h4.2)
  refine main data data' ds ds' h1 h2 ?_
  cases ds with
  | nil => simp [reduceWith] at hs
  | cons a as =>
    cases ds' with
    | nil => simp [reduceWith] at hs'
    | cons a' as' =>
      simp only [reduceWith, foldl_sep, Option.some.injEq] at hs hs'
      rw [List.flatMap_cons, List.flatMap_cons, List.append_assoc, List.append_assoc, hs, hs']

theorem clauseText_inj {str : P → List Char} {lookup : List (List Char)}
    (hl : ∀ d : List (List P), ∀ l ∈ conjLits str lookup d, '\n' ∉ l ∧ '&' ∉ l) {data data' : List (List (List P))}
    {t : List Char} (h1 : clauseText str lookup data = some t) (h2 : clauseText str lookup data' = some t) :
    List.Forall₂ (fun d d' => conjLits str lookup d = conjLits str lookup d') data data' := by
  unfold clauseText at h1 h2
  split at h1
  · next hd =>
    cases List.length_eq_zero_iff.1 hd
    split at h2
    · next hd' =>
      cases List.length_eq_zero_iff.1 hd'
      exact .nil
    · simp only [Option.bind_eq_bind, Option.bind_eq_some_iff] at h2
      obtain ⟨ds, -, s, -, h3⟩ := h2
      cases h1
      simp at h3
  · simp only [Option.bind_eq_bind, Option.bind_eq_some_iff] at h1
    obtain ⟨ds, hds, s, hs, h3⟩ := h1
    split at h2
    · cases h2
      simp at h3
    · simp only [Option.bind_eq_bind, Option.bind_eq_some_iff] at h2
      obtain ⟨ds', hds', s', hs', h3'⟩ := h2
      have : s = s' := by
        rw [← h3'] at h3
        simpa using h3
      subst this
      exact disj_cut hl hds hds' hs hs'

theorem lit_inj {str : P → List Char} (hs : GoodStr str) {p q : P} {s t : List Char} {u v : Char}
    (hu : u ∈ ['<', '>', '=', '!']) (hv : v ∈ ['<', '>', '=', '!'])
    (h : str p ++ ' ' :: u :: s = str q ++ ' ' :: v :: t) : p = q ∧ u = v := by
  have h1 := congrArg (List.takeWhile (fun c => decide (c ∉ ['<', '>', '=', '!']))) h
  have h2 : ∀ (p : P) (u : Char) (s : List Char), u ∈ ['<', '>', '=', '!'] →
      (str p ++ ' ' :: u :: s).takeWhile (fun c => decide (c ∉ ['<', '>', '=', '!'])) = str p ++ [' '] := by
    intro p u s hu
    rw [List.takeWhile_append_of_pos]
    · simp only [List.mem_cons, List.not_mem_nil, or_false] at hu
      rcases hu with rfl | rfl | rfl | rfl <;> simp [List.takeWhile]
    · intro c hc
      have := hs.chars p c hc
      simp only [List.mem_cons, List.not_mem_nil, or_false, not_or] at this
      simp [this]
  rw [h2 p u s hu, h2 q v t hv] at h1
  have hpq := List.append_cancel_right h1
  rw [hpq] at h
  have h3 := List.append_cancel_left h
  simp only [List.cons.injEq, true_and] at h3
  exact ⟨hs.inj p q hpq, h3.1⟩

/-- two lists of conditions with the same texts -/
theorem lits_inj {str : P → List Char} (hs : GoodStr str) {u : Char} {s : List Char} (hu : u ∈ ['<', '>', '=', '!'])
    {ps qs : List P} {rest rest' : List (List Char)}
    (hr : ∀ l ∈ rest ++ rest', ∃ p v t, v ∈ ['<', '>', '=', '!'] ∧ v ≠ u ∧ l = str p ++ ' ' :: v :: t)
    (h : ps.map (fun p => str p ++ ' ' :: u :: s) ++ rest = qs.map (fun p => str p ++ ' ' :: u :: s) ++ rest') :
    ps = qs ∧ rest = rest' := by
  induction ps generalizing qs with
  | nil =>
    cases qs with
    | nil => exact ⟨rfl, by simpa using h⟩
    | cons q qs =>
      simp only [List.map_nil, List.nil_append, List.map_cons, List.cons_append] at h
      obtain ⟨p, v, t, hv, hne, hl⟩ := hr (str q ++ ' ' :: u :: s) (by rw [h]; simp)
      exact absurd (lit_inj hs hu hv hl).2 (Ne.symm hne)
  | cons p ps ih =>
    cases qs with
    | nil =>
      simp only [List.map_nil, List.nil_append, List.map_cons, List.cons_append] at h
      obtain ⟨p', v, t, hv, hne, hl⟩ := hr (str p ++ ' ' :: u :: s) (by rw [← h]; simp)
      exact absurd (lit_inj hs hu hv hl).2 (Ne.symm hne)
    | cons q qs =>
      simp only [List.map_cons, List.cons_append, List.cons.injEq] at h
      have h1 := ih h.2
      exact ⟨by rw [(lit_inj hs hu hu h.1).1, h1.1], h1.2⟩

theorem realLits_clean {str : P → List Char} (hs : GoodStr str) (d : List (List P)) :
    ∀ l ∈ conjLits str [" < 0".toList, " == 0".toList, " > 0".toList] d, '\n' ∉ l ∧ '&' ∉ l := by
  have key : ∀ p, '\n' ∉ str p ∧ '&' ∉ str p := fun p =>
    ⟨fun h => hs.chars p _ h (by simp), fun h => hs.chars p _ h (by simp)⟩
  intro l hl
  rcases d with _ | ⟨a, _ | ⟨b, _ | ⟨c, d⟩⟩⟩ <;>
    simp only [conjLits, List.not_mem_nil, List.mem_append, List.mem_map, or_false] at hl
  · obtain ⟨p, -, rfl⟩ := hl; simp [key p]
  · rcases hl with ⟨p, -, rfl⟩ | ⟨p, -, rfl⟩ <;> simp [key p]
  · rcases hl with ⟨p, -, rfl⟩ | ⟨p, -, rfl⟩ | ⟨p, -, rfl⟩ <;> simp [key p]

theorem complexLits_clean {str : P → List Char} (hs : GoodStr str) (d : List (List P)) :
    ∀ l ∈ conjLits str [" == 0".toList, " != 0".toList] d, '\n' ∉ l ∧ '&' ∉ l := by
  have key : ∀ p, '\n' ∉ str p ∧ '&' ∉ str p := fun p =>
    ⟨fun h => hs.chars p _ h (by simp), fun h => hs.chars p _ h (by simp)⟩
  intro l hl
  rcases d with _ | ⟨a, _ | ⟨b, d⟩⟩ <;>
    simp only [conjLits, List.not_mem_nil, List.mem_append, List.mem_map, or_false] at hl
  · obtain ⟨p, -, rfl⟩ := hl; simp [key p]
  · rcases hl with ⟨p, -, rfl⟩ | ⟨p, -, rfl⟩ <;> simp [key p]

/-- **C123**, unambiguous (real): two answers with the same text are the same answer. -/
theorem C123_real_text {str : P → List Char} (hs : GoodStr str) {r r' : List (List P × List P × List P)} {t : List Char}
    (h1 : realText str r = some t) (h2 : realText str r' = some t) : r = r' := by
  have h := clauseText_inj (realLits_clean hs) h1 h2
  rw [List.forall₂_map_left_iff, List.forall₂_map_right_iff] at h
  have : ∀ {a b : List P × List P × List P}, conjLits str [" < 0".toList, " == 0".toList, " > 0".toList] [a.1, a.2.1, a.2.2] =
      conjLits str [" < 0".toList, " == 0".toList, " > 0".toList] [b.1, b.2.1, b.2.2] → a = b := by
    rintro ⟨a1, a2, a3⟩ ⟨b1, b2, b3⟩ h
    simp only [conjLits] at h
    rw [show " < 0".toList = [' ', '<', ' ', '0'] from rfl, show " == 0".toList = [' ', '=', '=', ' ', '0'] from rfl,
      show " > 0".toList = [' ', '>', ' ', '0'] from rfl] at h
    have h' := lits_inj hs (u := '<') (s := [' ', '0']) (by simp) (by
      intro l hl
      simp only [List.mem_append, List.mem_map, List.not_mem_nil, or_false] at hl
      rcases hl with (⟨p, -, rfl⟩ | ⟨p, -, rfl⟩) | (⟨p, -, rfl⟩ | ⟨p, -, rfl⟩)
      · exact ⟨p, '=', ['=', ' ', '0'], by simp, by decide, rfl⟩
      · exact ⟨p, '>', [' ', '0'], by simp, by decide, rfl⟩
      · exact ⟨p, '=', ['=', ' ', '0'], by simp, by decide, rfl⟩
      · exact ⟨p, '>', [' ', '0'], by simp, by decide, rfl⟩) h
    clear h
    obtain ⟨rfl, h⟩ := h'
    have h' := lits_inj hs (u := '=') (s := ['=', ' ', '0']) (by simp) (by
      intro l hl
      simp only [List.mem_append, List.mem_map, List.not_mem_nil, or_false] at hl
      rcases hl with ⟨p, -, rfl⟩ | ⟨p, -, rfl⟩
      · exact ⟨p, '>', [' ', '0'], by simp, by decide, rfl⟩
      · exact ⟨p, '>', [' ', '0'], by simp, by decide, rfl⟩) h
    clear h
    obtain ⟨rfl, h⟩ := h'
    have h' := lits_inj hs (u := '>') (s := [' ', '0']) (by simp) (by simp) h
    obtain ⟨rfl, -⟩ := h'
    rfl
  exact List.forall₂_eq_eq_eq ▸ (h.imp fun _ _ => this)

/-- **C123**, unambiguous (complex). -/
theorem C123_complex_text {str : P → List Char} (hs : GoodStr str) {r r' : List (List P × List P)} {t : List Char}
    (h1 : complexText str r = some t) (h2 : complexText str r' = some t) : r = r' := by
  have h := clauseText_inj (complexLits_clean hs) h1 h2
  rw [List.forall₂_map_left_iff, List.forall₂_map_right_iff] at h
  have : ∀ {a b : List P × List P}, conjLits str [" == 0".toList, " != 0".toList] [a.1, a.2] =
      conjLits str [" == 0".toList, " != 0".toList] [b.1, b.2] → a = b := by
    rintro ⟨a1, a2⟩ ⟨b1, b2⟩ h
    simp only [conjLits] at h
    rw [show " == 0".toList = [' ', '=', '=', ' ', '0'] from rfl, show " != 0".toList = [' ', '!', '=', ' ', '0'] from rfl] at h
    have h' := lits_inj hs (u := '=') (s := ['=', ' ', '0']) (by simp) (by
      intro l hl
      simp only [List.mem_append, List.mem_map, List.not_mem_nil, or_false] at hl
      rcases hl with ⟨p, -, rfl⟩ | ⟨p, -, rfl⟩
      · exact ⟨p, '!', ['=', ' ', '0'], by simp, by decide, rfl⟩
      · exact ⟨p, '!', ['=', ' ', '0'], by simp, by decide, rfl⟩) h
    clear h
    obtain ⟨rfl, h⟩ := h'
    have h' := lits_inj hs (u := '!') (s := ['=', ' ', '0']) (by simp) (by simp) h
    obtain ⟨rfl, -⟩ := h'
    rfl
  exact List.forall₂_eq_eq_eq ▸ (h.imp fun _ _ => this)

theorem clauseText_some {str : P → List Char} {lookup : List (List Char)} {data : List (List (List P))}
    (h : ∀ d ∈ data, conjLits str lookup d ≠ []) : ∃ t, clauseText str lookup data = some t := by
  unfold clauseText
  split
  · exact ⟨_, rfl⟩
  · next hne =>
    have hm : ∀ data : List (List (List P)), (∀ d ∈ data, conjLits str lookup d ≠ []) →
        ∃ ds, data.mapM (conjText str lookup) = some ds ∧ ds.length = data.length := by
      intro data
      induction data with
      | nil => intro _; exact ⟨[], rfl, rfl⟩
      | cons d data ih =>
        intro h
        obtain ⟨ds, hds, hlen⟩ := ih fun d hd => h d (List.mem_cons_of_mem _ hd)
        obtain ⟨t, ht⟩ : ∃ t, conjText str lookup d = some t := by
          cases hl : conjLits str lookup d with
          | nil => exact absurd hl (h d (by simp))
          | cons c cs => simp [conjText, hl, reduceWith]
        exact ⟨t :: ds, by simp [List.mapM_cons, ht, hds], by simp [hlen]⟩
    obtain ⟨ds, hds, hlen⟩ := hm data h
    rw [hds]
    cases ds with
    | nil => simp only [List.length_nil] at hlen; omega
    | cons a as => simp [reduceWith]

variable {R : Type} [CommRing R] [DecidableEq R]

/-- **C123**: `real_full` prints its answer without an exception, and no other answer has this text. -/
theorem C123_real (A : MAlg R) (fuel : ℕ) (l e g : List (List R)) (out : QOut (List (List R) × List (List R) × List (List R)))
    (h : realFull A fuel l e g = .ok out) (str : List R → List Char) (hs : GoodStr str) :
    ∃ t, realText str out.ret = some t ∧ ∀ r', realText str r' = some t → r' = out.ret := by
  have hne : ∀ c ∈ out.ret, (c.2.1 ++ c.1 ++ c.2.2).length ≠ 0 := by
    unfold realFull at h
    simp only [bind, Except.bind] at h
    repeat' split at h
    all_goals first
      | (exfalso; cases h; done)
      | (cases h; intro c hc; exact of_decide_eq_true (List.mem_filter.1 hc).2)
  obtain ⟨t, ht⟩ := clauseText_some (str := str) (lookup := [" < 0".toList, " == 0".toList, " > 0".toList])
    (data := out.ret.map fun c => [c.1, c.2.1, c.2.2]) (by
      intro d hd
      obtain ⟨c, hc, rfl⟩ := List.mem_map.1 hd
      have := hne c hc
      intro h0
      simp only [conjLits, List.append_nil, List.append_eq_nil_iff, List.map_eq_nil_iff] at h0
      exact this (by simp [h0]))
  exact ⟨t, ht, fun r' hr' => C123_real_text hs hr' ht⟩

/-- **C123**: `complex_full` prints its answer without an exception, and no other answer has this text. -/
theorem C123_complex (A : MAlg R) (fuel : ℕ) (e n : List (List R)) (out : QOut (List (List R) × List (List R)))
    (h : complexFull A fuel e n = .ok out) (str : List R → List Char) (hs : GoodStr str) :
    ∃ t, complexText str out.ret = some t ∧ ∀ r', complexText str r' = some t → r' = out.ret := by
  have hne : ∀ c ∈ out.ret, (c.1 ++ c.2).length ≠ 0 := by
    unfold complexFull at h
    simp only [bind, Except.bind] at h
    repeat' split at h
    all_goals first
      | (exfalso; cases h; done)
      | (cases h; intro c hc; exact of_decide_eq_true (List.mem_filter.1 hc).2)
  obtain ⟨t, ht⟩ := clauseText_some (str := str) (lookup := [" == 0".toList, " != 0".toList])
    (data := out.ret.map fun c => [c.1, c.2]) (by
      intro d hd
      obtain ⟨c, hc, rfl⟩ := List.mem_map.1 hd
      have := hne c hc
      intro h0
      simp only [conjLits, List.append_nil, List.append_eq_nil_iff, List.map_eq_nil_iff] at h0
      exact this (by simp [h0]))
  exact ⟨t, ht, fun r' hr' => C123_complex_text hs hr' ht⟩

/-! ### A way of printing -/

/-- an integer in unary -/
def intStr (n : ℤ) : List Char := (if n < 0 then ['-'] else []) ++ List.replicate n.natAbs '1'

/-- a polynomial in `x` and `y`: its coefficients, each the list of its coefficients -/
def zyStr (p : List ZY) : List Char :=
  p.flatMap fun c => (c.coeffs.flatMap fun n => intStr n ++ [',']) ++ [';']

theorem intStr_chars (n : ℤ) : ∀ c ∈ intStr n, c = '-' ∨ c = '1' := by
  intro c hc
  unfold intStr at hc
  rw [List.mem_append] at hc
  rcases hc with hc | hc
  · split at hc
    · left; simpa using hc
    · simp at hc
  · exact .inr (List.eq_of_mem_replicate hc)

theorem intStr_inj {m n : ℤ} (h : intStr m = intStr n) : m = n := by
  have key : ∀ m : ℤ, (intStr m).count '1' = m.natAbs ∧ ('-' ∈ intStr m ↔ m < 0) := by
    intro m
    unfold intStr
    split
    · next h => simp [h]
    · next h => simp [h, List.mem_replicate]
  have h1 : m.natAbs = n.natAbs := by rw [← (key m).1, ← (key n).1, h]
  have h2 : m < 0 ↔ n < 0 := by rw [← (key m).2, ← (key n).2, h]
  omega

theorem flatMap_end_inj {α : Type} {f : α → List Char} {x : Char} (hx : ∀ a, x ∉ f a)
    (hf : ∀ a b, f a = f b → a = b) : ∀ as bs : List α,
    (as.flatMap fun a => f a ++ [x]) = (bs.flatMap fun a => f a ++ [x]) → as = bs
  | [], [], _ => rfl
  | [], b :: bs, h => by simp at h
  | a :: as, [], h => by simp at h
  | a :: as, b :: bs, h => by
    have := cut (hx a) (hx b) (s := as.flatMap fun a => f a ++ [x]) (t := bs.flatMap fun a => f a ++ [x]) (by simpa using h)
    rw [hf a b this.1, flatMap_end_inj hx hf as bs this.2]

theorem zyStr_good : GoodStr zyStr where
  inj p q h := by
    refine flatMap_end_inj (x := ';') (f := fun c : ZY => c.coeffs.flatMap fun n => intStr n ++ [',']) ?_ ?_ p q h
    · intro c hc
      obtain ⟨n, -, hn⟩ := List.mem_flatMap.1 hc
      rw [List.mem_append] at hn
      rcases hn with hn | hn
      · rcases intStr_chars n _ hn with h | h <;> exact absurd h (by decide)
      · exact absurd hn (by decide)
    · rintro ⟨c, hc⟩ ⟨d, hd⟩ h
      have : c = d := by
        refine flatMap_end_inj (x := ',') (f := intStr) ?_ (fun _ _ => intStr_inj) c d h
        intro n hn
        rcases intStr_chars n _ hn with h | h <;> exact absurd h (by decide)
      subst this
      rfl
  chars p c hc := by
    obtain ⟨a, -, ha⟩ := List.mem_flatMap.1 hc
    rw [List.mem_append] at ha
    rcases ha with ha | ha
    · obtain ⟨n, -, hn⟩ := List.mem_flatMap.1 ha
      rw [List.mem_append] at hn
      rcases hn with hn | hn
      · rcases intStr_chars n _ hn with rfl | rfl <;> decide
      · rw [List.mem_singleton] at hn; subst hn; decide
    · rw [List.mem_singleton] at ha; subst ha; decide

/-- the first documented call satisfies the hypotheses: its nine conjunctions are printed, and determined by the text -/
example : ∃ out t, realFull readmeAlg 100 [[-ZY.y, 1]] [[-1, 1]] [] = .ok out ∧ out.ret.length = 9 ∧
    realText zyStr out.ret = some t ∧ ∀ r', realText zyStr r' = some t → r' = out.ret := by
  obtain ⟨-, out, h, hl⟩ := C100_violated
  obtain ⟨t, ht, hu⟩ := C123_real _ _ _ _ _ out h zyStr zyStr_good
  exact ⟨out, t, h, hl, ht, hu⟩

/-- the text of an answer of two conjunctions, polynomials printed as lists of coefficients -/
example : realText zyStr [([[-ZY.y], [1]], [], [[ZY.y]]), ([], [[ZY.y - 1]], [])] = some
    "ans:\n(\n  ,-1,; < 0 & \n  1,; < 0 & \n  ,1,; > 0\n) | \n(\n  -1,1,; == 0\n)\n".toList := by
  decide +kernel

/-- **C123**, the boundary: a text is produced exactly when each conjunction has a condition. -/
theorem C123_text_iff (str : P → List Char) (r : List (List P × List P × List P)) :
    (∃ t, realText str r = some t) ↔ ([], [], []) ∉ r := by
  constructor
  · rintro ⟨t, ht⟩ hmem
    unfold realText clauseText at ht
    rw [if_neg (by rw [List.length_map]; exact fun h => by rw [List.length_eq_zero_iff] at h; simp [h] at hmem)] at ht
    simp only [Option.bind_eq_bind, Option.bind_eq_some_iff] at ht
    obtain ⟨ds, hds, -⟩ := ht
    have : ∀ (data : List (List (List P))) ds, data.mapM (conjText str [" < 0".toList, " == 0".toList, " > 0".toList]) = some ds →
        [[], [], []] ∉ data := by
      intro data
      induction data with
      | nil => simp
      | cons d data ih =>
        intro ds h
        rw [List.mapM_cons] at h
        simp only [Option.bind_eq_bind, Option.bind_eq_some_iff] at h
        obtain ⟨a, ha, as, has, -⟩ := h
        obtain ⟨c, cs, hc, -⟩ := conjText_eq ha
        rw [List.mem_cons, not_or]
        refine ⟨?_, ih as has⟩
        rintro rfl
        simp [conjLits] at hc
    exact this _ ds hds (List.mem_map.2 ⟨_, hmem, rfl⟩)
  · intro h
    refine clauseText_some ?_
    intro d hd
    obtain ⟨⟨a, b, c⟩, hc, rfl⟩ := List.mem_map.1 hd
    intro h0
    simp only [conjLits, List.append_nil, List.append_eq_nil_iff, List.map_eq_nil_iff] at h0
    obtain ⟨rfl, rfl, rfl⟩ := h0
    exact h hc

/-- **C123**, no conjunction: `No assigments` is printed exactly for the empty list. -/
theorem C123_none (str : P → List Char) (r : List (List P × List P × List P)) :
    realText str r = some "No assigments\n".toList ↔ r = [] := by
  constructor
  · intro h
    unfold realText clauseText at h
    split at h
    · next hl => simpa using hl
    · simp only [Option.bind_eq_bind, Option.bind_eq_some_iff] at h
      obtain ⟨ds, -, s, -, h3⟩ := h
      simp at h3
  · rintro rfl
    rfl

/-- satisfiable and unsatisfiable problems for which `No assigments` is printed: `x < 0` and `1 < 0` without parameters -/
example : (realFull readmeAlg 100 [[0, 1]] [] []).toOption.map (fun o => (realText zyStr o.ret, o.satisfiable)) =
      some (some "No assigments\n".toList, true) ∧
    (realFull readmeAlg 100 [[1]] [] []).toOption.map (fun o => (realText zyStr o.ret, o.satisfiable)) =
      some (some "No assigments\n".toList, false) := by
  decide +kernel

/-! ### The text itself -/

theorem intercalate_flatMap (sep c : List Char) (cs : List (List Char)) :
    List.intercalate sep (c :: cs) = c ++ cs.flatMap (sep ++ ·) := by
  induction cs generalizing c with
  | nil => simp [List.intercalate]
  | cons d cs ih =>
    have : List.intercalate sep (c :: d :: cs) = c ++ (sep ++ List.intercalate sep (d :: cs)) := by
      simp [List.intercalate]
    rw [this, ih]
    simp

theorem reduceWith_eq (sep : List Char) {l : List (List Char)} (h : l ≠ []) : reduceWith sep l = some (List.intercalate sep l) := by
  cases l with
  | nil => exact absurd rfl h
  | cons c cs => rw [reduceWith, foldl_sep, intercalate_flatMap]

theorem clauseText_eq {str : P → List Char} {lookup : List (List Char)} {data : List (List (List P))} (hd : data ≠ [])
    (h : ∀ d ∈ data, conjLits str lookup d ≠ []) : clauseText str lookup data = some ("ans:\n".toList ++
      List.intercalate " | \n".toList (data.map fun d =>
        "(\n  ".toList ++ List.intercalate " & \n  ".toList (conjLits str lookup d) ++ "\n)".toList) ++ "\n".toList) := by
  unfold clauseText
  rw [if_neg (by rw [List.length_eq_zero_iff]; exact hd)]
  have hm : data.mapM (conjText str lookup) = some (data.map fun d =>
      "(\n  ".toList ++ List.intercalate " & \n  ".toList (conjLits str lookup d) ++ "\n)".toList) := by
    clear hd
    induction data with
    | nil => rfl
    | cons d data ih =>
      rw [List.mapM_cons, ih fun d hd => h d (List.mem_cons_of_mem _ hd), conjText, reduceWith_eq _ (h d (by simp))]
      rfl
  rw [hm]
  simp only [Option.bind_eq_bind, Option.bind_some]
  rw [reduceWith_eq _ (by simpa using hd)]
  rfl

/-- **C123**, the text (real): a disjunction of conjunctions, in the order of the returned list; each conjunction consists
of the polynomials that are negative, zero and positive with these relations. -/
theorem C123_real_layout (str : P → List Char) (r : List (List P × List P × List P)) (hr : r ≠ []) (hne : ([], [], []) ∉ r) :
    realText str r = some ("ans:\n".toList ++ List.intercalate " | \n".toList (r.map fun c =>
      "(\n  ".toList ++ List.intercalate " & \n  ".toList
        (c.1.map (fun p => str p ++ " < 0".toList) ++ c.2.1.map (fun p => str p ++ " == 0".toList) ++
          c.2.2.map (fun p => str p ++ " > 0".toList)) ++ "\n)".toList) ++ "\n".toList) := by
  unfold realText
  rw [clauseText_eq (by simpa using hr)]
  · simp only [List.map_map]
    congr 5
    funext c
    simp [conjLits]
  · intro d hd
    obtain ⟨⟨a, b, c⟩, hc, rfl⟩ := List.mem_map.1 hd
    intro h0
    simp only [conjLits, List.append_nil, List.append_eq_nil_iff, List.map_eq_nil_iff] at h0
    obtain ⟨rfl, rfl, rfl⟩ := h0
    exact hne hc

/-- **C123**, the text (complex). -/
theorem C123_complex_layout (str : P → List Char) (r : List (List P × List P)) (hr : r ≠ []) (hne : ([], []) ∉ r) :
    complexText str r = some ("ans:\n".toList ++ List.intercalate " | \n".toList (r.map fun c =>
      "(\n  ".toList ++ List.intercalate " & \n  ".toList
        (c.1.map (fun p => str p ++ " == 0".toList) ++ c.2.map (fun p => str p ++ " != 0".toList)) ++ "\n)".toList) ++
      "\n".toList) := by
  unfold complexText
  rw [clauseText_eq (by simpa using hr)]
  · simp only [List.map_map]
    congr 5
    funext c
    simp [conjLits]
  · intro d hd
    obtain ⟨⟨a, b⟩, hc, rfl⟩ := List.mem_map.1 hd
    intro h0
    simp only [conjLits, List.append_nil, List.append_eq_nil_iff, List.map_eq_nil_iff] at h0
    obtain ⟨rfl, rfl⟩ := h0
    exact hne hc

/-- the hypotheses are satisfied by the answer above -/
example : ([([[-ZY.y], [1]], [], [[ZY.y]]), ([], [[ZY.y - 1]], [])] : List (List (List ZY) × List (List ZY) × List (List ZY))) ≠ [] ∧
    ([], [], []) ∉ ([([[-ZY.y], [1]], [], [[ZY.y]]), ([], [[ZY.y - 1]], [])] : List (List (List ZY) × List (List ZY) × List (List ZY))) := by
  decide

end Verif.Qe
