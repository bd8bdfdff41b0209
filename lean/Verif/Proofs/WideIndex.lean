import Verif.Proofs.Ranges
/-
  Index registers outside the register file.
-/

set_option linter.unusedSimpArgs false

namespace Monoasm
open Spec

theorem encItems_wide {op k mm imm} {rm : Rm} {sc x d} (hm : rm.mode = .ind (.s1 sc x) d) (hx : 16 ≤ x.num) :
    ¬ NoFail (encItems op k mm rm imm) := by
  obtain ⟨b, mode⟩ := rm
  simp only at hm
  subst hm
  have hs : ∀ b, sibItem sc x b = .fail .assertFailed := fun b => by
    simp only [sibItem]
    rw [if_neg]
    rintro ⟨-, h⟩
    exact absurd h (by simpa [BitVec.not_lt] using hx)
  intro h
  simp only [encItems] at h
  repeat' split at h
  all_goals simp_all [Rm.rip_ind_from, scaleItems]

/-- An address with such an index. -/
def WideIndex (a : IndAddr Val Nat) : Prop := ∃ sc r, a.scale = .s1 sc r ∧ 16 ≤ r.toReg.num

theorem enc_wide {op k mm imm} {a : IndAddr Val Nat} (h : WideIndex a) : ¬ NoFail (encItems op k mm a.toRm imm) := by
  obtain ⟨sc, r, h1, h2⟩ := h
  exact encItems_wide (sc := sc) (x := r.toReg) (d := a.disp.toDisp) (by simp [IndAddr.toRm, Rm.ind, h1, MScale.toScale]) h2

/-- Every encoder that is given such an address. -/
theorem wide {a : IndAddr Val Nat} (h : WideIndex a) :
    (∀ op r, ¬ NoFail (It.rexw_mr op r a.toRm)) ∧ (∀ op r, ¬ NoFail (It.mr op r a.toRm)) ∧ (∀ op r, ¬ NoFail (It.mr_byte op r a.toRm))
    ∧ (∀ op i, ¬ NoFail (It.mi op a.toRm i)) ∧ (∀ op i, ¬ NoFail (It.rexw_mi op a.toRm i)) ∧ (∀ op i, ¬ NoFail (It.mi_byte op a.toRm i))
    ∧ (∀ op, ¬ NoFail (It.m_byte op a.toRm)) ∧ (∀ op d, ¬ NoFail (It.digit op a.toRm d)) ∧ (∀ op d i, ¬ NoFail (It.digit_imm op a.toRm d i))
    ∧ (∀ op al d i, ¬ NoFail (It.digit_imm_byte op al a.toRm d i)) ∧ (∀ op d i, ¬ NoFail (It.rexw_digit op a.toRm d i))
    ∧ ∀ op x, ¬ NoFail (It.sd op x (.ind a)) := by
  have hm : a.toRm.is_rax = false := by simp [IndAddr.toRm, Rm.ind, Rm.is_rax]
  refine ⟨fun _ _ => enc_wide h, fun _ _ => enc_wide h, fun _ _ => enc_wide h, fun _ _ => enc_wide h, fun _ _ => enc_wide h,
    fun _ _ => enc_wide h, fun _ => enc_wide h, fun _ _ => enc_wide h, fun _ _ _ => enc_wide h, fun op al d i => ?_,
    fun _ _ _ => enc_wide h, fun _ _ hf => enc_wide h (noFail_tail hf)⟩
  rw [It.digit_imm_byte, hm, if_neg (by simp)]
  split <;> exact enc_wide h

macro "wide" hi:ident hf:ident ha:ident hw:ident : tactic => `(tactic| (
  first
  | (simp only [items, It.movq, It.movl, It.movw, It.movb, reduceCtorEq] at $hi:ident; done)
  | (simp [RmOperand.addrs, RmiOperand.addrs, XmOperand.addrs, MovOperand.addrs, Dest.addrs] at $ha:ident; done)
  | (simp [RmOperand.addrs, RmiOperand.addrs, XmOperand.addrs, MovOperand.addrs, Dest.addrs] at $ha:ident
     subst $ha:ident
     obtain ⟨w1, w2, w3, w4, w5, w6, w7, w8, w9, w10, w11, w12⟩ := wide $hw
     simp only [items, It.movq, It.movl, It.movw, It.movb, It.push_pop, RmOperand.toRm, XmOperand.toRm, Except.ok.injEq, reduceCtorEq] at $hi:ident
     try subst $hi:ident
     (repeat' split at $hf:ident) <;> simp_all
     done)))

theorem binary_wide {sz o d} {p : RmOperand Val Nat} {q : RmiOperand Val Nat} {its a} (hi : It.binary_op sz o d p q = .ok its)
    (hf : NoFail its) (ha : a ∈ p.addrs ++ q.addrs) : ¬ WideIndex a := by
  intro hw
  cases sz <;> simp only [It.binary_op] at hi <;> cases p <;> cases q <;>
    simp only [It.binary_opq, It.binary_opl, It.binary_opw, It.binary_opb] at hi <;> wide hi hf ha hw

theorem shift_wide {sz d} {p : RmOperand Val Nat} {q : RiOperand Val} {its a} (hi : It.shift_op sz d p q = .ok its)
    (hf : NoFail its) (ha : a ∈ p.addrs) : ¬ WideIndex a := by
  intro hw
  cases sz <;> cases p <;> cases q <;> simp only [It.shift_op] at hi <;> wide hi hf ha hw

theorem count_wide {sz c r} {p : RmOperand Val Nat} {its a} (hi : It.count_op sz c r p = .ok its)
    (hf : NoFail its) (ha : a ∈ p.addrs) : ¬ WideIndex a := by
  intro hw
  cases sz <;> cases p <;> simp only [It.count_op] at hi <;> wide hi hf ha hw

/-- No code is generated for a statement with such an address. -/
theorem items_wide {i : Inst Val Nat} {its a} (hi : items i = .ok its) (hf : NoFail its) (ha : a ∈ i.addrs) : ¬ WideIndex a := by
  intro hw
  cases i
  case Add | Sub | Adc | Sbb | And | Or | Xor | Cmp => exact binary_wide hi hf ha hw
  case Shl | Shr | Sal | Sar | Rol | Ror => exact shift_wide hi hf ha hw
  case Lzcnt | Tzcnt | Popcnt => exact count_wide hi hf ha hw
  all_goals simp only [Inst.addrs, List.not_mem_nil] at ha
  case Movq p q =>
    cases p <;> cases q <;> first | wide hi hf ha hw | (rename_i z; cases z <;> wide hi hf ha hw)
  case Movl p q | Movw p q | Movb p q | Imul p q | Lea p q | Movsd p q | Testq p q | Testb p q => cases p <;> cases q <;> wide hi hf ha hw
  case Xchg z p q => cases z <;> cases p <;> cases q <;> wide hi hf ha hw
  case Cmovcc z c r q => cases z <;> cases q <;> wide hi hf ha hw
  case Movsxl r q | Movzxw r q | Movsxw r q | Movzxb r q | Movsxb r q | Addsd r q | Subsd r q | Mulsd r q | Divsd r q | Xorps r q | UComIsd r q
    | Minsd r q | Maxsd r q | Andpd r q | Xorpd r q | Cvtsi2sdq r q | Cvttsd2siq r q | Sqrtpd r q | Sqrtsd r q | Setcc r q => cases q <;> wide hi hf ha hw
  case Roundpd r q n => cases q <;> wide hi hf ha hw
  case Negq q | Idiv q | Idivl q | Div q | Divl q | Pushq q | Popq q | Jmp q | Call q => cases q <;> wide hi hf ha hw

end Monoasm
