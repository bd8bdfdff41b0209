import Verif.Proofs.Hygiene
/-
  Evaluations made by each statement.
-/

set_option linter.unusedSimpArgs false
set_option linter.unusedVariables false

namespace Monoasm
open Spec G JitMemory
attribute [local irreducible] G.regRm G.arg1 G.letImm G.tryI8 G.tryI16 G.tryI32 G.jit G.letVar
  G.block G.eval G.label G.reg G.xmm G.rm G.xm G.ind G.panic

variable {ε lam ω : Type} {U : User ε lam ω} {E : ε → Prop} {F : lam → Prop} {g : G ε lam ω Unit}

/-- An operand `[i]`: the condition on its expression. -/
theorem of_single {i : ε} (h : ∀ e ∈ [i], E e) : E i := h i (by simp)

syntax "perm_leaf" : tactic
macro_rules
  | `(tactic| perm_leaf) => `(tactic| (
      classical
      (first | rfl | skip)
      <;> (show List.Perm _ _)
      <;> rw [List.perm_iff_count]
      <;> intro x
      <;> simp only [List.count_append, List.append_nil, List.nil_append, List.count_nil, Nat.zero_add,
        Nat.add_zero,
        RmOperand.order, XmOperand.order, IndAddr.order, RmOperand.exprs, RmiOperand.exprs,
        RiOperand.exprs, XmOperand.exprs, MovOperand.exprs, Dest.exprs, IndAddr.exprs, Inst.exprs]
      <;> omega))

syntax "tr_leaf" : tactic
macro_rules
  | `(tactic| tr_leaf) => `(tactic| first
      | assumption
      | exact of_single (by assumption)
      | decide
      | rfl
      | perm_leaf)

syntax "tr_step" : tactic
macro_rules
  | `(tactic| tr_step) => `(tactic| first
      | exact Tr.panic
      | exact Tr.panic_bind
      | apply Tr.reg
      | apply Tr.xmm
      | apply Tr.ind
      | apply Tr.rm
      | apply Tr.xm
      | apply Tr.label
      | apply Tr.eval
      | apply Tr.letImm
      | apply Tr.letVar
      | apply Tr.jit
      | apply Tr.regRm
      | apply Tr.arg1
      | apply Tr.tryI8
      | apply Tr.tryI16
      | apply Tr.tryI32
      | apply Tr.block
      | apply Tr.ite
      | apply Tr.pure
      | apply Tr.bind)

syntax "tr" : tactic
macro_rules
  | `(tactic| tr) => `(tactic| ((repeat' (first | tr_step | (intro _; tr_step))) <;> tr_leaf))

theorem tr_movl {op1 : RmOperand ε lam} {op2 : RmiOperand ε lam} (h1 : ∀ e ∈ op1.exprs, E e)
    (h2 : ∀ e ∈ op2.exprs, E e) (l1 : ∀ l ∈ op1.labels, F l) (l2 : ∀ l ∈ op2.labels, F l)
    (h : Expand.movl U op1 op2 = .ok g) :
    Tr E F g (fun l => List.Perm l (op1.exprs ++ op2.exprs)) := by
  cases op1 <;> cases op2 <;> simp only [Expand.movl, Except.ok.injEq, reduceCtorEq] at h <;>
    subst h
  all_goals tr

theorem tr_movw {op1 : RmOperand ε lam} {op2 : RmiOperand ε lam} (h1 : ∀ e ∈ op1.exprs, E e)
    (h2 : ∀ e ∈ op2.exprs, E e) (l1 : ∀ l ∈ op1.labels, F l) (l2 : ∀ l ∈ op2.labels, F l)
    (h : Expand.movw U op1 op2 = .ok g) :
    Tr E F g (fun l => List.Perm l (op1.exprs ++ op2.exprs)) := by
  cases op1 <;> cases op2 <;> simp only [Expand.movw, Except.ok.injEq, reduceCtorEq] at h <;>
    subst h
  all_goals tr

theorem tr_movb {op1 : RmOperand ε lam} {op2 : RmiOperand ε lam} (h1 : ∀ e ∈ op1.exprs, E e)
    (h2 : ∀ e ∈ op2.exprs, E e) (l1 : ∀ l ∈ op1.labels, F l) (l2 : ∀ l ∈ op2.labels, F l)
    (h : Expand.movb U op1 op2 = .ok g) :
    Tr E F g (fun l => List.Perm l (op1.exprs ++ op2.exprs)) := by
  cases op1 <;> cases op2 <;> simp only [Expand.movb, Except.ok.injEq, reduceCtorEq] at h <;>
    subst h
  all_goals tr

theorem tr_binary_opq {op_mr digit : BitVec 8} {op1 : RmOperand ε lam} {op2 : RmiOperand ε lam} (h1 : ∀ e ∈ op1.exprs, E e)
    (h2 : ∀ e ∈ op2.exprs, E e) (l1 : ∀ l ∈ op1.labels, F l) (l2 : ∀ l ∈ op2.labels, F l)
    (h : Expand.binary_opq U op_mr digit op1 op2 = .ok g) :
    Tr E F g (fun l => List.Perm l (op1.exprs ++ op2.exprs)) := by
  cases op1 <;> cases op2 <;> simp only [Expand.binary_opq, Except.ok.injEq, reduceCtorEq] at h <;>
    subst h
  all_goals tr

theorem tr_binary_opl {op_mr digit : BitVec 8} {op1 : RmOperand ε lam} {op2 : RmiOperand ε lam} (h1 : ∀ e ∈ op1.exprs, E e)
    (h2 : ∀ e ∈ op2.exprs, E e) (l1 : ∀ l ∈ op1.labels, F l) (l2 : ∀ l ∈ op2.labels, F l)
    (h : Expand.binary_opl U op_mr digit op1 op2 = .ok g) :
    Tr E F g (fun l => List.Perm l (op1.exprs ++ op2.exprs)) := by
  cases op1 <;> cases op2 <;> simp only [Expand.binary_opl, Except.ok.injEq, reduceCtorEq] at h <;>
    subst h
  all_goals tr

theorem tr_binary_opw {op_mr digit : BitVec 8} {op1 : RmOperand ε lam} {op2 : RmiOperand ε lam} (h1 : ∀ e ∈ op1.exprs, E e)
    (h2 : ∀ e ∈ op2.exprs, E e) (l1 : ∀ l ∈ op1.labels, F l) (l2 : ∀ l ∈ op2.labels, F l)
    (h : Expand.binary_opw U op_mr digit op1 op2 = .ok g) :
    Tr E F g (fun l => List.Perm l (op1.exprs ++ op2.exprs)) := by
  cases op1 <;> cases op2 <;> simp only [Expand.binary_opw, Except.ok.injEq, reduceCtorEq] at h <;>
    subst h
  all_goals tr

theorem tr_binary_opb {op_mr digit : BitVec 8} {op1 : RmOperand ε lam} {op2 : RmiOperand ε lam} (h1 : ∀ e ∈ op1.exprs, E e)
    (h2 : ∀ e ∈ op2.exprs, E e) (l1 : ∀ l ∈ op1.labels, F l) (l2 : ∀ l ∈ op2.labels, F l)
    (h : Expand.binary_opb U op_mr digit op1 op2 = .ok g) :
    Tr E F g (fun l => List.Perm l (op1.exprs ++ op2.exprs)) := by
  cases op1 <;> cases op2 <;> simp only [Expand.binary_opb, Except.ok.injEq, reduceCtorEq] at h <;>
    subst h
  all_goals tr

theorem tr_binary_op {sz : OperandSize} {op_mr digit : BitVec 8} {op1 : RmOperand ε lam}
    {op2 : RmiOperand ε lam} (h1 : ∀ e ∈ op1.exprs, E e)
    (h2 : ∀ e ∈ op2.exprs, E e) (l1 : ∀ l ∈ op1.labels, F l) (l2 : ∀ l ∈ op2.labels, F l)
    (h : Expand.binary_op U sz op_mr digit op1 op2 = .ok g) :
    Tr E F g (fun l => List.Perm l (op1.exprs ++ op2.exprs)) := by
  cases sz with
  | QWORD => exact tr_binary_opq h1 h2 l1 l2 h
  | DWORD => exact tr_binary_opl h1 h2 l1 l2 h
  | WORD => exact tr_binary_opw h1 h2 l1 l2 h
  | BYTE => exact tr_binary_opb h1 h2 l1 l2 h

theorem tr_shift_op {sz : OperandSize} {digit : BitVec 8} {op1 : RmOperand ε lam}
    {op2 : RiOperand ε} (h1 : ∀ e ∈ op1.exprs, E e)
    (h2 : ∀ e ∈ op2.exprs, E e) (l1 : ∀ l ∈ op1.labels, F l)
    (h : Expand.shift_op U sz digit op1 op2 = .ok g) :
    Tr E F g (fun l => List.Perm l (op1.exprs ++ op2.exprs)) := by
  cases sz <;> cases op1 <;> cases op2 <;>
    simp only [Expand.shift_op, Except.ok.injEq, reduceCtorEq] at h <;> subst h
  all_goals tr

theorem tr_divide_op {sz : OperandSize} {sg : Bool} {op : RmOperand ε lam}
    (h1 : ∀ e ∈ op.exprs, E e) (l1 : ∀ l ∈ op.labels, F l)
    (h : Expand.divide_op U sz sg op = .ok g) : Tr E F g (fun l => List.Perm l op.exprs) := by
  cases sz <;> cases op <;> simp only [Expand.divide_op, Except.ok.injEq, reduceCtorEq] at h <;> subst h
  all_goals tr

theorem tr_push_pop {o : BitVec 8} {m : BitVec 8 × BitVec 8} {op : RmOperand ε lam}
    (h1 : ∀ e ∈ op.exprs, E e) (l1 : ∀ l ∈ op.labels, F l)
    (h : Expand.push_pop U o m op = .ok g) : Tr E F g (fun l => List.Perm l op.exprs) := by
  cases op <;> simp only [Expand.push_pop, Except.ok.injEq, reduceCtorEq] at h <;> subst h
  all_goals tr

theorem tr_count_op {sz : OperandSize} {o : BitVec 8} {op1 : Register ε} {op2 : RmOperand ε lam}
    (h1 : ∀ e ∈ op1.exprs, E e) (h2 : ∀ e ∈ op2.exprs, E e) (l2 : ∀ l ∈ op2.labels, F l)
    (h : Expand.count_op U sz o op1 op2 = .ok g) :
    Tr E F g (fun l => List.Perm l (op1.exprs ++ op2.exprs)) := by
  cases sz <;> cases op2 <;> simp only [Expand.count_op, Except.ok.injEq, reduceCtorEq] at h <;> subst h
  all_goals tr

theorem tr_binary_sd_op {o : BitVec 8} {op1 : XmmReg ε} {op2 : XmOperand ε lam}
    (h1 : ∀ e ∈ op1.exprs, E e) (h2 : ∀ e ∈ op2.exprs, E e) (l2 : ∀ l ∈ op2.labels, F l)
    (h : Expand.binary_sd_op U o op1 op2 = .ok g) :
    Tr E F g (fun l => List.Perm l (op1.exprs ++ op2.exprs)) := by
  cases op2 <;> simp only [Expand.binary_sd_op, Except.ok.injEq, reduceCtorEq] at h <;> subst h
  all_goals tr

theorem tr_movq {op1 op2 : MovOperand ε lam} (h1 : ∀ e ∈ op1.exprs, E e)
    (h2 : ∀ e ∈ op2.exprs, E e) (l1 : ∀ l ∈ op1.labels, F l) (l2 : ∀ l ∈ op2.labels, F l)
    (hr : ¬ Repeats (.Movq op1 op2))
    (h : Expand.movq U op1 op2 = .ok g) :
    Tr E F g (fun l => List.Perm l (op1.exprs ++ op2.exprs)) := by
  cases op1 with
  | imm i sz => simp [Expand.movq] at h
  | reg r =>
    cases op2 with
    | imm i sz => exact absurd trivial hr
    | reg r2 => simp only [Expand.movq, Except.ok.injEq] at h; subst h; tr
    | xmm x => simp only [Expand.movq, Except.ok.injEq] at h; subst h; tr
    | ind a => simp only [Expand.movq, Except.ok.injEq] at h; subst h; tr
  | xmm x =>
    cases op2 with
    | imm i sz => simp [Expand.movq] at h
    | reg r2 => simp only [Expand.movq, Except.ok.injEq] at h; subst h; tr
    | xmm x => simp only [Expand.movq, Except.ok.injEq] at h; subst h; tr
    | ind a => simp only [Expand.movq, Except.ok.injEq] at h; subst h; tr
  | ind a =>
    cases op2 with
    | imm i sz =>
      cases sz with
      | none => simp only [Expand.movq, Except.ok.injEq] at h; subst h; tr
      | some s => simp [Expand.movq] at h
    | reg r2 => simp only [Expand.movq, Except.ok.injEq] at h; subst h; tr
    | xmm x => simp only [Expand.movq, Except.ok.injEq] at h; subst h; tr
    | ind a => simp [Expand.movq] at h

end Monoasm
