import Verif.Proofs.Parse4
import Verif.Model.Eval
import Verif.Spec.Conditions
import Verif.Spec.Meaning
/-
  Helper lemmas for C35.
-/

namespace Monoasm
open Spec X86

variable {X : RustExpr}

theorem condNames_condition {c n} (hn : n ∈ condNames c) : ∃ p, condition n = some p ∧ ∀ f, (cc c).holds f = p f := by
  have key : ∀ n ∈ condNames c, (condition n).isSome ∧ ∀ p, condition n = some p → ∀ f, (cc c).holds f = p f := by
    cases c <;> simp only [condNames, List.forall_mem_cons] <;> and_intros <;>
      first
      | rfl
      | (intro p hp f
         cases hp
         obtain ⟨a, b, c, d, e⟩ := f
         revert a b c d e
         decide +kernel)
      | (intro x hx; cases hx)
  obtain ⟨h1, h2⟩ := key n hn
  obtain ⟨p, hp⟩ := Option.isSome_iff_exists.1 h1
  exact ⟨p, hp, h2 p hp⟩

theorem ite_some {α} {c : Prop} [Decidable c] {a b : α} {x : Option α} (h : (if c then some a else x) = some b) : c ∨ x = some b := by
  by_cases hc : c
  · exact .inl hc
  · rw [if_neg hc] at h; exact .inr h

theorem condition_condNames {n p} (h : condition n = some p) : (∃ c, n ∈ condNames c) ∨ n = "nb" := by
  have key : ∀ c, n ∈ condNames c → (∃ c, n ∈ condNames c) ∨ n = "nb" := fun c hc => .inl ⟨c, hc⟩
  unfold condition at h
  rcases ite_some h with hn | h
  · rcases hn with rfl <;> first | exact key _ (condFrom_some.1 rfl) | exact .inr rfl
  rcases ite_some h with hn | h
  · rcases hn with rfl <;> first | exact key _ (condFrom_some.1 rfl) | exact .inr rfl
  rcases ite_some h with hn | h
  · rcases hn with rfl | rfl | rfl <;> first | exact key _ (condFrom_some.1 rfl) | exact .inr rfl
  rcases ite_some h with hn | h
  · rcases hn with rfl | rfl | rfl <;> first | exact key _ (condFrom_some.1 rfl) | exact .inr rfl
  rcases ite_some h with hn | h
  · rcases hn with rfl | rfl <;> first | exact key _ (condFrom_some.1 rfl) | exact .inr rfl
  rcases ite_some h with hn | h
  · rcases hn with rfl | rfl <;> first | exact key _ (condFrom_some.1 rfl) | exact .inr rfl
  rcases ite_some h with hn | h
  · rcases hn with rfl | rfl | rfl <;> first | exact key _ (condFrom_some.1 rfl) | exact .inr rfl
  rcases ite_some h with hn | h
  · rcases hn with rfl | rfl <;> first | exact key _ (condFrom_some.1 rfl) | exact .inr rfl
  rcases ite_some h with hn | h
  · rcases hn with rfl <;> first | exact key _ (condFrom_some.1 rfl) | exact .inr rfl
  rcases ite_some h with hn | h
  · rcases hn with rfl <;> first | exact key _ (condFrom_some.1 rfl) | exact .inr rfl
  rcases ite_some h with hn | h
  · rcases hn with rfl | rfl <;> first | exact key _ (condFrom_some.1 rfl) | exact .inr rfl
  rcases ite_some h with hn | h
  · rcases hn with rfl | rfl <;> first | exact key _ (condFrom_some.1 rfl) | exact .inr rfl
  rcases ite_some h with hn | h
  · rcases hn with rfl | rfl | rfl <;> first | exact key _ (condFrom_some.1 rfl) | exact .inr rfl
  rcases ite_some h with hn | h
  · rcases hn with rfl | rfl <;> first | exact key _ (condFrom_some.1 rfl) | exact .inr rfl
  rcases ite_some h with hn | h
  · rcases hn with rfl | rfl <;> first | exact key _ (condFrom_some.1 rfl) | exact .inr rfl
  rcases ite_some h with hn | h
  · rcases hn with rfl | rfl | rfl <;> first | exact key _ (condFrom_some.1 rfl) | exact .inr rfl
  cases h

/-- `parseInst` on a statement that is not a label. -/
theorem parseInst_cases (hX : Takes X) {s ops i rest} (h : parseInst X (.ident s :: ops) = .ok (i, rest)) :
    (i = .Label s ∧ ops = .punct ':' :: rest)
    ∨ s ∈ spellings i ∧ ∃ tss, Each (operandSyn X i) tss ∧ ops = commas tss ++ .punct ';' :: rest := by
  obtain ⟨pre, h1, h2⟩ := (parseInst_ok hX).1 h
  cases h2 with
  | label => simp only [List.cons_append, List.nil_append, List.cons.injEq, Tok.ident.injEq] at h1; exact .inl ⟨by rw [h1.1], h1.2⟩
  | inst h3 h4 =>
    simp only [List.cons_append, List.cons.injEq, Tok.ident.injEq] at h1
    obtain ⟨rfl, rfl⟩ := h1
    exact .inr ⟨h3, _, h4, by simp⟩

/-- The condition of a statement. -/
def condOf {ε lam} : Inst ε lam → Option Cond
  | .Jcc c _ => some c
  | .Setcc c _ => some c
  | .Cmovcc _ c _ _ => some c
  | _ => none

theorem conditionOf_meaning {rel} {i : Inst Val Nat} {I} (h : meaning rel i = some I) : conditionOf I = (condOf i).map cc := by
  cases i
  case Jcc => cases h; rfl
  case Setcc =>
    simp only [meaning, Option.bind_eq_bind, Option.bind_eq_some_iff] at h
    obtain ⟨_, _, h⟩ := h
    cases h; rfl
  case Cmovcc =>
    simp only [meaning] at h
    split at h
    · cases h
    · simp only [Option.bind_eq_bind, Option.bind_eq_some_iff] at h
      obtain ⟨_, _, _, _, h⟩ := h
      cases h; rfl
  all_goals
    simp only [meaning, Spec.alu, Spec.mov, Spec.movq, Spec.ext, Spec.shift, Spec.xchg, Spec.un, Spec.sse,
      Option.bind_eq_bind, Option.bind_eq_some_iff] at h
    repeat' first
      | (cases h; done)
      | (cases h; rfl)
      | (obtain ⟨_, _, h⟩ := h)
      | (simp only [Option.bind_eq_some_iff] at h)
      | split at h

theorem condOf_map {ε ε' lam lam'} (f : ε → ε') (g : lam → lam') (i : Inst ε lam) : condOf (i.map f g) = condOf i := by
  cases i <;> rfl

theorem condOf_spellings {i : TInst} {c s} (h : condOf i = some c) (hs : s ∈ spellings i) :
    ∃ n ∈ condNames c, Conditional n s := by
  cases i <;> cases h
  case Setcc =>
    obtain ⟨n, h1, rfl⟩ := List.mem_map.1 hs
    exact ⟨n, h1, .inr (.inl rfl)⟩
  case Cmovcc sz a b =>
    simp only [spellings] at hs
    split at hs
    · cases hs
    · obtain ⟨n, h1, rfl⟩ := List.mem_map.1 hs
      refine ⟨n, h1, ?_⟩
      cases sz
      · exact .inr (.inr (.inl rfl))
      · exact .inr (.inr (.inr (.inl rfl)))
      · exact .inr (.inr (.inr (.inr rfl)))
      · contradiction
  case Jcc =>
    obtain ⟨n, h1, rfl⟩ := List.mem_map.1 hs
    exact ⟨n, (List.mem_filter.1 h1).1, .inl rfl⟩

/-- What a conditional mnemonic parses to. -/
theorem conditional_cases (hX : Takes X) {n p s ops i rest} (hn : condition n = some p) (hs : Conditional n s)
    (h : parseOperands X s ops = .ok (i, rest)) : ∃ c, condOf i = some c ∧ n ∈ condNames c := by
  rcases condition_condNames hn with ⟨c, hc⟩ | rfl
  · have e2 := fun (i : TInst) => parseOperands_eq (X := X) (s := s) (i := i)
    have rm := reads_rm hX
    have reg := reads_register hX
    have hcm : ∀ sz, s = "cmov" ++ n ++ suffix sz → sz ≠ .BYTE → ∃ c, condOf i = some c ∧ n ∈ condNames c := by
      intro sz e hsz
      rw [e2 (.Cmovcc sz c (.reg 0) (.reg (.reg 0))) (by
        rw [e]; simp only [spellings, hsz, if_false]; exact List.mem_map.2 ⟨n, hc, rfl⟩)] at h
      obtain ⟨a, b, ta, tb, rfl, -⟩ := (parse2_ok reg rm).1 h
      exact ⟨c, rfl, hc⟩
    rcases hs with rfl | rfl | rfl | rfl | rfl
    · by_cases hlg : n ≠ "l" ∧ n ≠ "g"
      · rw [e2 (.Jcc c "") (List.mem_map.2 ⟨n, List.mem_filter.2 ⟨hc, by simpa using hlg⟩, rfl⟩)] at h
        obtain ⟨a, ta, rfl, -⟩ := (parse1_ok reads_label).1 h
        exact ⟨c, rfl, hc⟩
      · exfalso
        have : n = "l" ∨ n = "g" := by
          by_cases h1 : n = "l"
          · exact .inl h1
          · by_cases h2 : n = "g"
            · exact .inr h2
            · exact absurd ⟨h1, h2⟩ hlg
        rcases this with rfl | rfl
        · cases h
        · cases h
    · rw [e2 (.Setcc c (.reg (.reg 0))) (List.mem_map.2 ⟨n, hc, rfl⟩)] at h
      obtain ⟨a, ta, rfl, -⟩ := (parse1_ok rm).1 h
      exact ⟨c, rfl, hc⟩
    · exact hcm .QWORD rfl (by decide)
    · exact hcm .DWORD rfl (by decide)
    · exact hcm .WORD rfl (by decide)
  · exfalso
    rcases hs with rfl | rfl | rfl | rfl | rfl <;> cases h

theorem negated_condition {n p q} (hn : condition n = some p) (hm : condition ("n" ++ n) = some q) (f) : q f = !p f := by
  have key : ∀ n, (∃ c, n ∈ condNames c) ∨ n = "nb" → ∀ p q, condition n = some p → condition ("n" ++ n) = some q →
      ∀ f, q f = !p f := by
    rintro n (⟨c, hc⟩ | rfl)
    · cases c <;> simp only [condNames, List.mem_cons, List.not_mem_nil, or_false] at hc
      all_goals
        first
        | subst hc
        | (rcases hc with rfl | rfl | rfl)
        | (rcases hc with rfl | rfl)
        all_goals
          intro p q hp hq f
          first
          | (cases hq; done)
          | (cases hp; cases hq
             obtain ⟨a, b, c, d, e⟩ := f
             revert a b c d e
             decide +kernel)
    · intro p q hp hq
      cases hq
  exact key n (condition_condNames hn) p q hn hm f

end Monoasm
