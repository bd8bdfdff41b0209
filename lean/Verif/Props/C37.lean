import Verif.Proofs.Listing
/-
  C37: splitting a macro call is unobservable.
-/

namespace Monoasm
open Spec

/-- Two macro calls are accepted iff the combined call is, and then the combined call has the effect
    of the two calls in sequence, in every state, panics included. -/
theorem C37_split (a b : List (Inst Val Nat)) :
    (∀ m, compileAll (a ++ b) = .ok m →
      ∃ ma mb, compileAll a = .ok ma ∧ compileAll b = .ok mb ∧ ∀ s, m s = (do ma; mb) s)
    ∧ (∀ ma mb, compileAll a = .ok ma → compileAll b = .ok mb →
      ∃ m, compileAll (a ++ b) = .ok m ∧ ∀ s, m s = (do ma; mb) s) := by
  induction a with
  | nil =>
    constructor
    · intro m h
      exact ⟨pure (), m, rfl, h, fun s => rfl⟩
    · intro ma mb ha hb
      cases ha
      exact ⟨mb, hb, fun s => rfl⟩
  | cons i a ih =>
    have hassoc : ∀ (x y z w : M Unit), (∀ s, w s = (do y; z) s) → ∀ s, (do x; w) s = (do (do x; y); z) s := by
      intro x y z w hw s
      rw [M.bind_def, M.bind_def, M.bind_def]
      cases hx : x s with
      | ok u s1 => simp only [hw]; rw [M.bind_def]
      | panic e s1 => rfl
    simp only [List.cons_append, compileAll]
    cases hi : compile i with
    | error e => exact ⟨fun m h => (by cases h), fun ma mb h => (by cases h)⟩
    | ok mi =>
      constructor
      · intro m h
        cases hab : compileAll (a ++ b) with
        | error e => rw [hab] at h; cases h
        | ok m' =>
          rw [hab] at h; cases h
          obtain ⟨ma, mb, h1, h2, h3⟩ := ih.1 m' hab
          exact ⟨do mi; ma, mb, by rw [h1], h2, hassoc _ _ _ _ h3⟩
      · intro ma mb ha hb
        cases ha' : compileAll a with
        | error e => rw [ha'] at ha; cases ha
        | ok ma' =>
          rw [ha'] at ha; cases ha
          obtain ⟨m, h1, h2⟩ := ih.2 ma' mb ha' hb
          exact ⟨do mi; m, by rw [h1], hassoc _ _ _ _ h2⟩

/-- The combined call is rejected with the error of the first call that is rejected. -/
theorem C37_reject (a b : List (Inst Val Nat)) (e : CompileError) :
    compileAll (a ++ b) = .error e ↔
      compileAll a = .error e ∨ (∃ ma, compileAll a = .ok ma) ∧ compileAll b = .error e := by
  induction a with
  | nil =>
    simp only [List.nil_append]
    constructor
    · intro h; exact .inr ⟨⟨_, rfl⟩, h⟩
    · rintro (h | ⟨_, h⟩)
      · cases h
      · exact h
  | cons i a ih =>
    simp only [List.cons_append, compileAll]
    cases hi : compile i with
    | error e' => simp
    | ok mi =>
      dsimp only
      cases hab : compileAll (a ++ b) with
      | error e' =>
        rw [hab] at ih
        cases ha : compileAll a with
        | error e'' => rw [ha] at ih; simpa using ih
        | ok ma => rw [ha] at ih; simpa using ih
      | ok m =>
        rw [hab] at ih
        cases ha : compileAll a with
        | error e'' => rw [ha] at ih; simpa using ih
        | ok ma => rw [ha] at ih; simpa using ih

/-- Also when the second half panics: `movl eax, 2^40` after `ret`. -/
example : ∃ ma mb m, compileAll [.Ret] = .ok ma ∧ compileAll [.Movl (.reg (.reg 0)) (.imm (2 ^ 40))] = .ok mb
    ∧ compileAll [.Ret, .Movl (.reg (.reg 0)) (.imm (2 ^ 40))] = .ok m
    ∧ (∃ s', m ex0 = .panic .immOutOfRange s') ∧ ∀ s, m s = (do ma; mb) s := by
  obtain ⟨m, h1, h2⟩ := (C37_split [.Ret] [.Movl (.reg (.reg 0)) (.imm (2 ^ 40))]).2 _ _ rfl rfl
  exact ⟨_, _, m, rfl, rfl, h1, by rw [h2]; exact ⟨_, rfl⟩, h2⟩

end Monoasm
