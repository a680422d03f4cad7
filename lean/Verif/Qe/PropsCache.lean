import Verif.Qe.CacheModel

/-!
# C30: the caching wrapper is transparent
-/

namespace Verif.Qe

variable {Op A Q V E : Type} [DecidableEq Op] [DecidableEq Q]

/-- What a call without cache gives: the wrapped operation, for one or two arguments. -/
def uncached (under : Op → List A → Except E V) (f : Op) (args : List A) : Except (CErr E) V :=
  if args.length = 1 ∨ args.length = 2 then
    match under f args with
    | .ok v => .ok v
    | .error e => .error (.wrapped e)
  else .error .notImplYet

theorem dGet_dSet {α β : Type} [DecidableEq α] (d : List (α × β)) (k k' : α) (v : β) :
    dGet (dSet d k v) k' = if k = k' then some v else dGet d k' := by
  induction d with
  | nil =>
    unfold dGet dSet
    by_cases h : k = k' <;> simp [h]
  | cons e d ih =>
    unfold dSet
    by_cases h1 : e.1 = k
    · rw [if_pos h1]
      by_cases h : k = k'
      · simp [dGet, h1, h]
      · have : e.1 ≠ k' := by rw [h1]; exact h
        simp [dGet, this, h]
    · rw [if_neg h1]
      by_cases h2 : e.1 = k'
      · have : k ≠ k' := fun h => h1 (h2.trans h.symm)
        simp [dGet, h2, this]
      · have hh : ∀ l : List (α × β), dGet (e :: l) k' = dGet l k' := by
          intro l; simp [dGet, h2]
        rw [hh, hh, ih]

theorem cGet_cPut (c : WCache Op Q V) (v : V) (f f' : Op) (a a' : List Q) :
    cGet (cPut c v f a) f' a' = if f = f' ∧ a = a' then some v else cGet c f' a' := by
  unfold cPut cGet
  cases h : dGet c f with
  | none =>
    simp only [dGet_dSet, if_true]
    by_cases hf : f = f'
    · subst hf
      simp only [if_true, dGet_dSet, true_and, h]
      by_cases ha : a = a' <;> simp [ha, dGet]
    · simp [hf]
  | some inner =>
    simp only [h, dGet_dSet]
    by_cases hf : f = f'
    · subst hf
      simp only [if_true, dGet_dSet, true_and, h]
    · simp [hf]

/-- **C30**, in full generality: in every history, the answer to a call is the answer of the uncached
operation to arguments that are equal as dictionary keys to those of the call. -/
theorem C30_up_to_key (under : Op → List A → Except E V) (key : A → Q) (isNone : V → Bool)
    (calls : List (Op × List A)) :
    List.Forall₂ (fun c r => ∃ args', args'.map key = c.2.map key ∧ r = uncached under c.1 args')
      calls (cRun under key isNone [] calls) := by
  have main : ∀ (calls : List (Op × List A)) (c : WCache Op Q V),
      (∀ f a v, cGet c f a = some v → ∃ args, args.map key = a ∧ uncached under f args = .ok v) →
      List.Forall₂ (fun c r => ∃ args', args'.map key = c.2.map key ∧ r = uncached under c.1 args')
        calls (cRun under key isNone c calls) := by
    intro calls
    induction calls with
    | nil => intro c _; exact .nil
    | cons call calls ih =>
      obtain ⟨f, args⟩ := call
      intro c hc
      have hcomp : ∀ r : Except (CErr E) V × WCache Op Q V,
          r = (if args.length = 1 ∨ args.length = 2 then
            match under f args with
            | .error e => (.error (.wrapped e), c)
            | .ok v => (.ok v, cPut c v f (args.map key))
          else (.error .notImplYet, c)) →
          r.1 = uncached under f args ∧
          ∀ f a v, cGet r.2 f a = some v → ∃ args, args.map key = a ∧ uncached under f args = .ok v := by
        intro r hr
        unfold uncached at *
        by_cases hl : args.length = 1 ∨ args.length = 2
        · rw [if_pos hl] at hr
          rw [if_pos hl]
          cases hu : under f args with
          | error e => rw [hu] at hr; subst hr; exact ⟨rfl, hc⟩
          | ok v =>
            rw [hu] at hr; subst hr
            refine ⟨rfl, ?_⟩
            intro f' a' v' h
            rw [cGet_cPut] at h
            split at h
            · rename_i hh
              obtain ⟨rfl, rfl⟩ := hh
              simp only [Option.some.injEq] at h
              exact ⟨args, rfl, by rw [if_pos hl, hu, h]⟩
            · exact hc f' a' v' h
        · rw [if_neg hl] at hr
          rw [if_neg hl]
          subst hr
          exact ⟨rfl, hc⟩
      obtain ⟨h1, h2⟩ := hcomp _ rfl
      unfold cRun
      have hcc : (∃ args', args'.map key = args.map key ∧
          (cCompute under key isNone c f args).1 = uncached under f args') ∧
          ∀ f' a v, cGet (cCompute under key isNone c f args).2 f' a = some v →
            ∃ args, args.map key = a ∧ uncached under f' args = .ok v := by
        unfold cCompute
        cases hg : cGet c f (args.map key) with
        | none => exact ⟨⟨args, rfl, h1⟩, h2⟩
        | some v =>
          by_cases hn : isNone v = true
          · simp only [hn, if_true]
            exact ⟨⟨args, rfl, h1⟩, h2⟩
          · simp only [hn]
            obtain ⟨args', h3, h4⟩ := hc _ _ _ hg
            exact ⟨⟨args', h3, h4.symm⟩, hc⟩
      exact .cons hcc.1 (ih _ hcc.2)
  exact main calls [] (by intro f a v h; simp [cGet, dGet] at h)

/-- **C30**. If the wrapped operations do not distinguish arguments that Python considers equal, every
call in every history returns exactly what the uncached call returns. -/
theorem C30_transparent (under : Op → List A → Except E V) (key : A → Q) (isNone : V → Bool)
    (hresp : ∀ f a b, a.map key = b.map key → under f a = under f b)
    (calls : List (Op × List A)) :
    cRun under key isNone [] calls = calls.map fun c => uncached under c.1 c.2 := by
  have h := C30_up_to_key under key isNone calls
  generalize cRun under key isNone [] calls = res at h
  induction h with
  | nil => rfl
  | cons h1 _ ih =>
    rw [List.map_cons, ih]
    congr 1
    obtain ⟨args', h1, rfl⟩ := h1
    have hl := congrArg List.length h1
    simp only [List.length_map] at hl
    unfold uncached
    rw [hl, hresp _ args' _ h1]

-- a history with a repeated call, a call with another operation and a failing one
example : cRun (fun (f : Bool) (l : List ℕ) =>
      if l = [7] then (.error () : Except Unit ℕ) else .ok (if f then l.sum else l.prod)) id
      (fun _ => false) [] [(true, [2, 3]), (false, [2, 3]), (true, [2, 3]), (true, [7]), (true, [])] =
    [.ok 5, .ok 6, .ok 5, .error (.wrapped ()), .error .notImplYet] := by decide +kernel

end Verif.Qe
