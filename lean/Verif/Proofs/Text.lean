import Verif.Props.C47
import Verif.Proofs.Listing
import Verif.Spec.Tests
/-
  Helper lemmas for C55.
-/

namespace Monoasm
open Spec

theorem eval_congr {vars vars' : String → Spec.Val} (e : Operand) (h : ∀ x ∈ e.names, vars x = vars' x) : e.eval vars = e.eval vars' := by
  induction e with
  | value v => rfl
  | unknown => rfl
  | var x => exact h x (by simp [Operand.names])
  | neg a ih => exact congrArg _ (ih h)
  | add a b iha ihb | sub a b iha ihb | mul a b iha ihb | rem a b iha ihb =>
    simp only [Operand.eval, iha fun x hx => h x (List.mem_append_left _ hx), ihb fun x hx => h x (List.mem_append_right _ hx)]

theorem panics_congr {vars vars' : String → Spec.Val} (e : Operand) (h : ∀ x ∈ e.names, vars x = vars' x) : e.panics vars = e.panics vars' := by
  induction e with
  | value v => rfl
  | unknown => rfl
  | var x => rfl
  | neg a ih => exact ih h
  | add a b iha ihb | sub a b iha ihb | mul a b iha ihb =>
    simp only [Operand.panics, iha fun x hx => h x (List.mem_append_left _ hx), ihb fun x hx => h x (List.mem_append_right _ hx)]
  | rem a b iha ihb =>
    simp only [Operand.panics, iha fun x hx => h x (List.mem_append_left _ hx), ihb fun x hx => h x (List.mem_append_right _ hx),
      eval_congr b fun x hx => h x (List.mem_append_right _ hx)]

theorem lexical_scope (vars labels) : Lexical (scope vars labels) Operand.names id where
  value e h h' hx := by
    funext w
    simp only [scope]
    rw [eval_congr e fun x hx' => by rw [hx x hx'], panics_congr e fun x hx' => by rw [hx x hx']]
  label l h h' hx := by
    have : h l = h' l := hx
    simp [scope, this]

theorem compileAll_runs : ∀ as : List (Inst Spec.Val Nat), (∀ i ∈ as, Accepted i) →
    ∃ m, compileAll as = .ok m ∧ ∀ s, m s = runOps (as.map .inst) s
  | [], _ => ⟨_, rfl, fun _ => rfl⟩
  | i :: as, h => by
    obtain ⟨mi, hi⟩ := h i (by simp)
    obtain ⟨m, hm, e⟩ := compileAll_runs as fun j hj => h j (by simp [hj])
    refine ⟨do mi; m, by rw [compileAll, hi, hm], fun s => ?_⟩
    rw [List.map_cons, runOps, M.bind_def, M.bind_def, show (Op.inst i).run = mi from by rw [Op.run, hi]]
    cases mi s with
    | ok u s1 => exact e s1
    | panic p s1 => rfl

theorem compileAll_rejects (as : List (Inst Spec.Val Nat)) (h : ∃ i ∈ as, ¬ Accepted i) : ∃ e, compileAll as = .error e := by
  induction as with
  | nil =>
    obtain ⟨i, hi, -⟩ := h
    simp at hi
  | cons i as ih =>
    simp only [compileAll]
    cases hi : compile i with
    | error e => exact ⟨e, rfl⟩
    | ok m =>
      obtain ⟨j, hj, hn⟩ := h
      rcases List.mem_cons.1 hj with e | hj
      · rw [e] at hn
        exact absurd ⟨m, hi⟩ hn
      · obtain ⟨e, he⟩ := ih ⟨j, hj, hn⟩
        rw [he]
        exact ⟨e, rfl⟩

instance {ε lam : Type} (names : ε → List String) (lname : lam → String) (i : Inst ε lam) : Decidable (Avoids names lname i) := by
  unfold Avoids; infer_instance

/-- Whether a text avoids the names. -/
def avoids (text : String) : Bool :=
  match statements text with
  | some is => is.all fun i => decide (Avoids Operand.names id i)
  | none => false

theorem avoids_sound {text} (h : avoids text = true) : ∃ is, statements text = some is ∧ ∀ i ∈ is, Avoids Operand.names id i := by
  unfold avoids at h
  split at h
  · rename_i is e
    exact ⟨is, e, by simpa using h⟩
  · cases h

end Monoasm
