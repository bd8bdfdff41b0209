import Verif.Proofs.Parse4
import Verif.Spec.Readme
/-
  Helper lemmas for C43.
-/

namespace Monoasm
open Spec

variable {X : RustExpr}

theorem gprNames_reg {s} (h : s ∈ gprNames) : ∃ n : BitVec 8, n < 16 ∧ RegName s n := by
  have key : ∀ s ∈ gprNames, ∃ n : BitVec 8, n < 16 ∧ regFromStr s = some n := by
    simp only [gprNames, regNames, List.take, List.forall_mem_cons]
    and_intros
    all_goals first
      | exact ⟨_, by decide, rfl⟩
      | (intro x hx; cases hx)
  obtain ⟨n, h1, h2⟩ := key s h
  exact ⟨n, h1, regFromStr_some.1 h2⟩

theorem xmmNames_xmm {s} (h : s ∈ xmmNames) : ∃ n : BitVec 8, n < 16 ∧ XmmSyn (.no n) [.ident s] := by
  have key : ∀ s ∈ xmmNames, ∃ n : BitVec 8, n < 16 ∧ xmm [.ident s] = .ok (.no n, []) := by
    simp only [xmmNames, List.forall_mem_cons]
    and_intros
    all_goals first
      | exact ⟨_, by decide, rfl⟩
      | (intro x hx; cases hx)
  obtain ⟨n, h1, h2⟩ := key s h
  obtain ⟨pre, e, h3⟩ := xmm_ok.1 h2
  rw [List.append_nil] at e
  exact ⟨n, h1, e ▸ h3⟩

theorem gpr_reg {n : BitVec 8} (h : n < 16) : gpr (.reg n) = some (n.setWidth 4) := by
  have : n.setWidth 64 < 16 := by
    have h' : n.toNat < 16 := h
    show (n.setWidth 64).toNat < 16
    simp; omega
  simp only [gpr, regVal, this, if_true]
  congr 1

theorem xmm_no {n : BitVec 8} (h : n < 16) : Spec.xmm (.no n) = some (n.setWidth 4) := by
  have : n.setWidth 64 < 16 := by
    have h' : n.toNat < 16 := h
    show (n.setWidth 64).toNat < 16
    simp; omega
  simp only [Spec.xmm, xmmVal, this, if_true]
  congr 1

theorem inst_text (hX : Takes X) {i : TInst} {s tss ts} (hs : s ∈ spellings i) (h : Each (operandSyn X i) tss)
    (e : ts = commas tss) : parseInst X (.ident s :: (ts ++ [.punct ';'])) = .ok (i, []) := by
  have := (parseInst_ok (rest := []) hX).2 ⟨_, rfl, .inst hs h⟩
  rw [e]
  simpa using this

section
variable {s : String}

/-- Operands of a two-register statement, for each of the operand types. -/
theorem works_regReg (f : BitVec 8 → BitVec 8 → TInst) (hX : Takes X) (hs : ∀ n m, s ∈ spellings (f n m))
    (ho : ∀ {a b n m}, RegName a n → RegName b m → Each (operandSyn X (f n m)) [[.ident a], [.ident b]])
    (ha : ∀ n m ρ σ, Accepted ((f n m).map ρ σ))
    (hv : ∀ n m ρ σ, n < 16 → m < 16 → ∃ I, meaning (fun _ => 0) ((f n m).map ρ σ) = some I) : Works X s .regReg := by
  intro ts h
  cases h with
  | regReg h1 h2 =>
    obtain ⟨n, hn, h1⟩ := gprNames_reg h1
    obtain ⟨m, hm, h2⟩ := gprNames_reg h2
    exact ⟨f n m, inst_text hX (hs n m) (ho h1 h2) rfl, fun ρ σ => ⟨ha n m ρ σ, .inl ⟨_, hv n m ρ σ hn hm⟩⟩⟩

theorem works_reg (f : BitVec 8 → TInst) (hX : Takes X) (hs : ∀ n, s ∈ spellings (f n))
    (ho : ∀ {a n}, RegName a n → Each (operandSyn X (f n)) [[.ident a]])
    (ha : ∀ n ρ σ, Accepted ((f n).map ρ σ))
    (hv : ∀ n ρ σ, n < 16 → ∃ I, meaning (fun _ => 0) ((f n).map ρ σ) = some I) : Works X s .reg := by
  intro ts h
  cases h with
  | reg h1 =>
    obtain ⟨n, hn, h1⟩ := gprNames_reg h1
    exact ⟨f n, inst_text hX (hs n) (ho h1) rfl, fun ρ σ => ⟨ha n ρ σ, .inl ⟨_, hv n ρ σ hn⟩⟩⟩

theorem works_regImm (f : BitVec 8 → List Tok → TInst) (hX : Takes X) (hs : ∀ n e, s ∈ spellings (f n e))
    (ho : ∀ {a n e te}, RegName a n → ImmSyn e te → Each (operandSyn X (f n e)) [[.ident a], te])
    (ha : ∀ n e ρ σ, Accepted ((f n e).map ρ σ))
    (hv : ∀ n e ρ σ, n < 16 → ∃ I, meaning (fun _ => 0) ((f n e).map ρ σ) = some I) : Works X s .regImm := by
  intro ts h
  cases h with
  | regImm h1 =>
    obtain ⟨n, hn, h1⟩ := gprNames_reg h1
    exact ⟨_, inst_text hX (hs n _) (ho h1 .lit) rfl, fun ρ σ => ⟨ha n _ ρ σ, .inl ⟨_, hv n _ ρ σ hn⟩⟩⟩

theorem works_xmmXmm (f : BitVec 8 → BitVec 8 → TInst) (hX : Takes X) (hs : ∀ n m, s ∈ spellings (f n m))
    (ho : ∀ {a b n m}, XmmSyn (.no n) a → XmmSyn (.no m) b → Each (operandSyn X (f n m)) [a, b])
    (ha : ∀ n m ρ σ, Accepted ((f n m).map ρ σ))
    (hv : ∀ n m ρ σ, n < 16 → m < 16 → ∃ I, meaning (fun _ => 0) ((f n m).map ρ σ) = some I) : Works X s .xmmXmm := by
  intro ts h
  cases h with
  | xmmXmm h1 h2 =>
    obtain ⟨n, hn, h1⟩ := xmmNames_xmm h1
    obtain ⟨m, hm, h2⟩ := xmmNames_xmm h2
    exact ⟨f n m, inst_text hX (hs n m) (ho h1 h2) rfl, fun ρ σ => ⟨ha n m ρ σ, .inl ⟨_, hv n m ρ σ hn hm⟩⟩⟩

theorem works_none (i : TInst) (hX : Takes X) (hs : s ∈ spellings i) (ho : operandSyn X i = [])
    (ha : ∀ ρ σ, Accepted (i.map ρ σ)) (hv : ∀ ρ σ, ∃ I, meaning (fun _ => 0) (i.map ρ σ) = some I) : Works X s .none := by
  intro ts h
  cases h with
  | none => exact ⟨i, inst_text hX (tss := []) hs (by rw [ho]; trivial) rfl, fun ρ σ => ⟨ha ρ σ, .inl ⟨_, hv ρ σ⟩⟩⟩

theorem works_label (f : String → TInst) (hX : Takes X) (hs : ∀ l, s ∈ spellings (f l))
    (ho : ∀ {l}, (∀ n, ¬ RegName l n) → Each (operandSyn X (f l)) [[.ident l]])
    (ha : ∀ l ρ σ, Accepted ((f l).map ρ σ)) (hv : ∀ l ρ σ, ∃ I, meaning (fun _ => 0) ((f l).map ρ σ) = some I) :
    Works X s .label := by
  intro ts h
  cases h with
  | label h => exact ⟨f _, inst_text hX (hs _) (ho h) rfl, fun ρ σ => ⟨ha _ ρ σ, .inl ⟨_, hv _ ρ σ⟩⟩⟩

end

end Monoasm
