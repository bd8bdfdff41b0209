import Verif.Proofs.Parse2
import Verif.Spec.Accept
/-
  Helper lemmas for C42 and C59: readings of the contents of brackets.
-/

namespace Monoasm
open Spec

variable {X : RustExpr}

theorem regSyn_inj (hX : Takes X) {i i' ti ti' r r'} (h : RegSyn X i ti) (h' : RegSyn X i' ti') (e : ti ++ r = ti' ++ r') :
    i = i' ∧ ti = ti' ∧ r = r' := by
  have h1 := (register_ok (rest := r) hX).2 ⟨ti, rfl, h⟩
  have h2 := (register_ok (rest := r') hX).2 ⟨ti', rfl, h'⟩
  rw [e, h2] at h1
  cases h1
  exact ⟨rfl, List.append_cancel_right e, rfl⟩

theorem body_ok (hX : Takes X) {b tb r a} (hb : RegSyn X b tb) : indAddrBody X (tb ++ r) = .ok (a, []) ↔ addrRest X b r = .ok (a, []) := by
  rw [indAddrBody_eq, P.bind_eq, (register_ok hX).2 ⟨tb, rfl, hb⟩]

theorem indexed (hX : Takes X) {b i tb ti t r a} (hb : RegSyn X b tb) (hi : RegSyn X i ti)
    (h : indAddrBody X (tb ++ .punct '+' :: (ti ++ t :: r)) = .ok (a, [])) :
    ∃ k tk d td, a = ⟨b, .s1 k i, d⟩ ∧ t :: r = tk ++ td ∧ ScaleSyn k tk ∧ OptDispSyn X d td := by
  rw [body_ok hX hb, addrRest_ok hX] at h
  obtain ⟨s, ti', e, -⟩ := regSyn_head hi
  rcases h with ⟨d, rfl, h1, -⟩ | ⟨i', k, d, ti2, tk, td, rfl, h1, h2, h3, h4⟩
  · exfalso
    rw [e] at h1
    cases h1 with
    | some h1 =>
      generalize e2 : Tok.punct '+' :: (Tok.ident s :: ti' ++ t :: r) = ts at h1
      cases h1 with
      | plus h => cases h <;> simp at e2
      | minus h => simp at e2
      | plusExpr => simp at e2
      | minusExpr => simp at e2
      | plusLabel => simp at e2
      | minusLabel => simp at e2
  · simp only [List.cons.injEq, true_and, List.append_assoc] at h1
    obtain ⟨rfl, rfl, e3⟩ := regSyn_inj hX hi h2 h1
    exact ⟨k, tk, d, td, rfl, e3, h3, h4⟩

theorem scaled (hX : Takes X) {b i tb ti ts a} (hb : RegSyn X b tb) (hi : RegSyn X i ti)
    (h : indAddrBody X (tb ++ .punct '+' :: (ti ++ .punct '*' :: ts)) = .ok (a, [])) :
    ∃ (k : BitVec 8) (suf : String) (td : List Tok), k < 4 ∧ ts = .int (2 ^ k.toNat) suf :: td
      ∧ ∃ d, a = ⟨b, .s1 k i, d⟩ ∧ OptDispSyn X d td := by
  obtain ⟨k, tk, d, td, rfl, e, h3, h4⟩ := indexed hX hb hi h
  cases h3 with
  | none => rw [List.nil_append] at e; rw [← e] at h4; exact absurd h4 optDisp_star
  | some hk =>
    simp only [List.cons_append, List.nil_append, List.cons.injEq, true_and] at e
    exact ⟨k, _, td, hk, e, d, rfl, h4⟩

theorem front_ok (hX : Takes X) {b sc ts d td} (hf : Front X b sc ts) (hd : DispSyn X d td)
    (hl : ∀ l, td ≠ [.punct '+', .ident l]) : indAddrBody X (ts ++ td) = .ok (⟨b, sc, d⟩, []) := by
  rw [indAddrBody_ok hX]
  cases hf with
  | base hb => exact .disp hb (.some hd) fun l h => absurd h (hl l)
  | index hb hi hk =>
    rw [List.append_assoc, List.cons_append]
    exact .index hb hi hk (.some hd)

theorem front_inv (hX : Takes X) {b sc ts t r td a} (hf : Front X b sc ts) (ht : t = .punct '+' ∨ t = .punct '-')
    (hl : ∀ l, r ≠ .ident l) (h : indAddrBody X (ts ++ t :: r :: td) = .ok (a, [])) :
    ∃ d, a = ⟨b, sc, d⟩ ∧ DispSyn X d (t :: r :: td) := by
  have opt : ∀ {d t r}, OptDispSyn X d (t :: r) → DispSyn X d (t :: r) := by
    intro d t r h
    cases h with
    | some h => exact h
  cases hf with
  | base hb =>
    rw [body_ok hX hb, addrRest_ok hX] at h
    rcases h with ⟨d, rfl, h1, -⟩ | ⟨i', k, d, ti2, tk, td, rfl, h1, h2, h3, h4⟩
    · exact ⟨d, rfl, opt h1⟩
    · obtain ⟨s, ti', rfl, -⟩ := regSyn_head h2
      simp only [List.cons_append, List.cons.injEq] at h1
      exact absurd h1.2.1 (hl s)
  | @index i k tb ti tk hb hi hk =>
    cases hk with
    | none =>
      have h' : indAddrBody X (tb ++ .punct '+' :: (ti ++ t :: r :: td)) = .ok (a, []) := by simpa using h
      obtain ⟨k, tk, d, td', rfl, e, h3, h4⟩ := indexed hX hb hi h'
      cases h3 with
      | none => rw [List.nil_append] at e; rw [← e] at h4; exact ⟨d, rfl, opt h4⟩
      | some hk =>
        simp only [List.cons_append, List.nil_append, List.cons.injEq] at e
        rcases ht with rfl | rfl <;> simp at e
    | @some _ suf hk =>
      have h' : indAddrBody X (tb ++ .punct '+' :: (ti ++ .punct '*' :: (.int (2 ^ k.toNat) suf :: t :: r :: td))) = .ok (a, []) := by
        simpa using h
      obtain ⟨k', suf, td', hk', e, d, rfl, h4⟩ := scaled hX hb hi h'
      simp only [List.cons.injEq, Tok.int.injEq] at e
      obtain ⟨⟨e1, -⟩, rfl⟩ := e
      have : k = k' := BitVec.eq_of_toNat_eq ((Nat.pow_right_inj (by decide)).1 e1)
      subst this
      exact ⟨d, rfl, opt h4⟩

theorem signExtend_eq_iff (v : Val) : (v.setWidth 32).signExtend 64 = v ↔ fits 32 v := by
  rw [← BitVec.toInt_inj, BitVec.toInt_signExtend_of_le (by decide), fits]
  simp only [BitVec.toInt_eq_toNat_bmod, BitVec.toNat_setWidth, Int.bmod_def]
  omega

end Monoasm
