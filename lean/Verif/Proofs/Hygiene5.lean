import Verif.Proofs.Hygiene4
/-
  Every statement: the expansion follows `compile`.
-/

set_option linter.unusedSimpArgs false
set_option linter.unusedVariables false

namespace Monoasm
open Spec G JitMemory
attribute [local irreducible] G.regRm G.arg1 G.letImm G.jit G.letVar
  G.block G.eval G.label G.reg G.xmm G.rm G.xm G.ind G.panic

variable {ε lam ω : Type} {U : User ε lam ω} {E : ε → Prop} {F : lam → Prop} {ρ : ε → V}
  {σ : lam → DestLabel}

/-- Same outcome of expansion, and the generated code does the same to the code memory. -/
def Expands : Expand.Code ε lam ω → Expansion → Prop
  | .ok g, .ok m => By g m
  | .error e, .error e' => e = e'
  | _, _ => False

syntax "by_leaf" : tactic
macro_rules
  | `(tactic| by_leaf) => `(tactic| first
      | assumption
      | exact of_single (by assumption)
      | decide)

syntax "by_val" : tactic
macro_rules
  | `(tactic| by_val) => `(tactic| first
      | exact Val.reg (by assumption) (by by_leaf)
      | exact Val.xmm (by assumption) (by by_leaf)
      | exact Val.ind (by assumption) (by by_leaf) (by by_leaf)
      | exact Val.rm_reg (by assumption) (by by_leaf)
      | exact Val.rm (by assumption) (by by_leaf) (by by_leaf)
      | exact Val.xm (by assumption) (by by_leaf) (by by_leaf)
      | exact Val.label (by assumption) (by by_leaf)
      | exact Val.eval (by assumption) (by by_leaf)
      | exact Val.letImm (by assumption) (by by_leaf)
      | exact Val.letVar (by decide)
      | exact Val.bind (Val.xmm (by assumption) (by by_leaf)) Val.pure)

syntax "by_step" : tactic
macro_rules
  | `(tactic| by_step) => `(tactic| first
      | exact By.jit
      | exact By.panic
      | exact By.pure
      | exact By.regRm (by by_val) (by by_val)
      | exact By.arg1 (by by_val)
      | refine By.val_bind (by by_val) ?_
      | refine By.bind By.jit (fun _ => ?_)
      | refine By.bind (By.arg1 (by by_val)) (fun _ => ?_)
      | refine By.bind (By.regRm (by by_val) (by by_val)) (fun _ => ?_)
      | refine By.bind (By.block By.panic) (fun _ => ?_)
      | refine By.ite ?_ ?_
      | refine By.ok (by decide) ?_
      | refine By.block ?_
      | (unfold G.tryI8; generalize i8TryFrom _ = o; cases o <;> dsimp only)
      | (unfold G.tryI16; generalize i16TryFrom _ = o; cases o <;> dsimp only)
      | (unfold G.tryI32; generalize i32TryFrom _ = o; cases o <;> dsimp only))

syntax "by_all" : tactic
macro_rules
  | `(tactic| by_all) => `(tactic| (repeat' by_step))

theorem by_movl (H : Values U E F ρ σ) {op1 : RmOperand ε lam} {op2 : RmiOperand ε lam}
    (h1 : ∀ e ∈ op1.exprs, E e) (h2 : ∀ e ∈ op2.exprs, E e) (l1 : ∀ l ∈ op1.labels, F l) (l2 : ∀ l ∈ op2.labels, F l) :
    Expands (Expand.movl U op1 op2) (Monoasm.movl (op1.map ρ σ) (op2.map ρ σ)) := by
  cases op1 <;> cases op2 <;> (try exact rfl)
  all_goals first
    | exact rfl
    | (show By _ _; by_all; done)

theorem by_movw (H : Values U E F ρ σ) {op1 : RmOperand ε lam} {op2 : RmiOperand ε lam}
    (h1 : ∀ e ∈ op1.exprs, E e) (h2 : ∀ e ∈ op2.exprs, E e) (l1 : ∀ l ∈ op1.labels, F l) (l2 : ∀ l ∈ op2.labels, F l) :
    Expands (Expand.movw U op1 op2) (Monoasm.movw (op1.map ρ σ) (op2.map ρ σ)) := by
  cases op1 <;> cases op2 <;> (try exact rfl)
  all_goals first
    | exact rfl
    | (show By _ _; by_all; done)

theorem by_movb (H : Values U E F ρ σ) {op1 : RmOperand ε lam} {op2 : RmiOperand ε lam}
    (h1 : ∀ e ∈ op1.exprs, E e) (h2 : ∀ e ∈ op2.exprs, E e) (l1 : ∀ l ∈ op1.labels, F l) (l2 : ∀ l ∈ op2.labels, F l) :
    Expands (Expand.movb U op1 op2) (Monoasm.movb (op1.map ρ σ) (op2.map ρ σ)) := by
  cases op1 <;> cases op2 <;> (try exact rfl)
  all_goals first
    | exact rfl
    | (show By _ _; by_all; done)

theorem by_binary_opq (H : Values U E F ρ σ) {op_mr digit : BitVec 8} {op1 : RmOperand ε lam} {op2 : RmiOperand ε lam}
    (h1 : ∀ e ∈ op1.exprs, E e) (h2 : ∀ e ∈ op2.exprs, E e) (l1 : ∀ l ∈ op1.labels, F l) (l2 : ∀ l ∈ op2.labels, F l) :
    Expands (Expand.binary_opq U op_mr digit op1 op2) (Monoasm.binary_opq op_mr digit (op1.map ρ σ) (op2.map ρ σ)) := by
  cases op1 <;> cases op2 <;> (try exact rfl)
  all_goals first
    | exact rfl
    | (show By _ _; by_all; done)

theorem by_binary_opl (H : Values U E F ρ σ) {op_mr digit : BitVec 8} {op1 : RmOperand ε lam} {op2 : RmiOperand ε lam}
    (h1 : ∀ e ∈ op1.exprs, E e) (h2 : ∀ e ∈ op2.exprs, E e) (l1 : ∀ l ∈ op1.labels, F l) (l2 : ∀ l ∈ op2.labels, F l) :
    Expands (Expand.binary_opl U op_mr digit op1 op2) (Monoasm.binary_opl op_mr digit (op1.map ρ σ) (op2.map ρ σ)) := by
  cases op1 <;> cases op2 <;> (try exact rfl)
  all_goals first
    | exact rfl
    | (show By _ _; by_all; done)

theorem by_binary_opw (H : Values U E F ρ σ) {op_mr digit : BitVec 8} {op1 : RmOperand ε lam} {op2 : RmiOperand ε lam}
    (h1 : ∀ e ∈ op1.exprs, E e) (h2 : ∀ e ∈ op2.exprs, E e) (l1 : ∀ l ∈ op1.labels, F l) (l2 : ∀ l ∈ op2.labels, F l) :
    Expands (Expand.binary_opw U op_mr digit op1 op2) (Monoasm.binary_opw op_mr digit (op1.map ρ σ) (op2.map ρ σ)) := by
  cases op1 <;> cases op2 <;> (try exact rfl)
  all_goals first
    | exact rfl
    | (show By _ _; by_all; done)

theorem by_binary_opb (H : Values U E F ρ σ) {op_mr digit : BitVec 8} {op1 : RmOperand ε lam} {op2 : RmiOperand ε lam}
    (h1 : ∀ e ∈ op1.exprs, E e) (h2 : ∀ e ∈ op2.exprs, E e) (l1 : ∀ l ∈ op1.labels, F l) (l2 : ∀ l ∈ op2.labels, F l) :
    Expands (Expand.binary_opb U op_mr digit op1 op2) (Monoasm.binary_opb op_mr digit (op1.map ρ σ) (op2.map ρ σ)) := by
  cases op1 <;> cases op2 <;> (try exact rfl)
  all_goals first
    | exact rfl
    | (show By _ _; by_all; done)

theorem by_shift_op (H : Values U E F ρ σ) {sz : OperandSize} {digit : BitVec 8} {op1 : RmOperand ε lam} {op2 : RiOperand ε}
    (h1 : ∀ e ∈ op1.exprs, E e) (h2 : ∀ e ∈ op2.exprs, E e) (l1 : ∀ l ∈ op1.labels, F l) :
    Expands (Expand.shift_op U sz digit op1 op2) (Monoasm.shift_op sz digit (op1.map ρ σ) (op2.map ρ)) := by
  cases sz <;> cases op1 <;> cases op2 <;> (try exact rfl)
  all_goals first
    | exact rfl
    | (show By _ _; by_all; done)

theorem by_count_op (H : Values U E F ρ σ) {sz : OperandSize} {o : BitVec 8} {op1 : Register ε} {op2 : RmOperand ε lam}
    (h1 : ∀ e ∈ op1.exprs, E e) (h2 : ∀ e ∈ op2.exprs, E e) (l2 : ∀ l ∈ op2.labels, F l) :
    Expands (Expand.count_op U sz o op1 op2) (Monoasm.count_op sz o (op1.map ρ) (op2.map ρ σ)) := by
  cases sz <;> cases op2 <;> (try exact rfl)
  all_goals first
    | exact rfl
    | (show By _ _; by_all; done)

theorem by_binary_sd_op (H : Values U E F ρ σ) {o : BitVec 8} {op1 : XmmReg ε} {op2 : XmOperand ε lam}
    (h1 : ∀ e ∈ op1.exprs, E e) (h2 : ∀ e ∈ op2.exprs, E e) (l2 : ∀ l ∈ op2.labels, F l) :
    Expands (Expand.binary_sd_op U o op1 op2) (Monoasm.binary_sd_op o (op1.map ρ) (op2.map ρ σ)) := by
  cases op2 <;> (try exact rfl)
  all_goals first
    | exact rfl
    | (show By _ _; by_all; done)

theorem by_binary_op (H : Values U E F ρ σ) {sz : OperandSize} {op_mr digit : BitVec 8}
    {op1 : RmOperand ε lam} {op2 : RmiOperand ε lam}
    (h1 : ∀ e ∈ op1.exprs, E e) (h2 : ∀ e ∈ op2.exprs, E e) (l1 : ∀ l ∈ op1.labels, F l)
    (l2 : ∀ l ∈ op2.labels, F l) :
    Expands (Expand.binary_op U sz op_mr digit op1 op2)
      (Monoasm.binary_op sz op_mr digit (op1.map ρ σ) (op2.map ρ σ)) := by
  cases sz with
  | QWORD => exact by_binary_opq H h1 h2 l1 l2
  | DWORD => exact by_binary_opl H h1 h2 l1 l2
  | WORD => exact by_binary_opw H h1 h2 l1 l2
  | BYTE => exact by_binary_opb H h1 h2 l1 l2

theorem by_divide_op (H : Values U E F ρ σ) {sz : OperandSize} {sg : Bool} {op : RmOperand ε lam}
    (h1 : ∀ e ∈ op.exprs, E e) (l1 : ∀ l ∈ op.labels, F l) :
    Expands (Expand.divide_op U sz sg op) (Monoasm.divide_op sz sg (op.map ρ σ)) := by
  cases sz <;> first
    | exact rfl
    | (show By _ _; by_all; done)

theorem by_push_pop (H : Values U E F ρ σ) {o : BitVec 8} {m : BitVec 8 × BitVec 8}
    {op : RmOperand ε lam} (h1 : ∀ e ∈ op.exprs, E e) (l1 : ∀ l ∈ op.labels, F l) :
    Expands (Expand.push_pop U o m op) (Monoasm.push_pop o m (op.map ρ σ)) := by
  cases op <;> (show By _ _; by_all; done)

theorem by_movq (H : Values U E F ρ σ) {op1 op2 : MovOperand ε lam}
    (h1 : ∀ e ∈ op1.exprs, E e) (h2 : ∀ e ∈ op2.exprs, E e) (l1 : ∀ l ∈ op1.labels, F l)
    (l2 : ∀ l ∈ op2.labels, F l) :
    Expands (Expand.movq U op1 op2) (Monoasm.movq (op1.map ρ σ) (op2.map ρ σ)) := by
  cases op1 with
  | imm i sz => exact rfl
  | reg r =>
    cases op2 with
    | imm i sz =>
      cases sz with
      | none => show By _ _; by_all
      | some s => cases s <;> first | exact rfl | (show By _ _; by_all; done)
    | reg r2 => show By _ _; by_all
    | xmm x => show By _ _; by_all
    | ind a => show By _ _; by_all
  | xmm x =>
    cases op2 with
    | imm i sz => exact rfl
    | reg r2 => show By _ _; by_all
    | xmm x => show By _ _; by_all
    | ind a => show By _ _; by_all
  | ind a =>
    cases op2 with
    | imm i sz =>
      cases sz with
      | none => show By _ _; by_all
      | some s => exact rfl
    | reg r2 => show By _ _; by_all
    | xmm x => show By _ _; by_all
    | ind a => exact rfl

set_option maxHeartbeats 1000000 in
theorem by_compile (H : Values U E F ρ σ) {i : Inst ε lam} (hE : ∀ e ∈ i.exprs, E e)
    (hF : ∀ l ∈ i.labels, F l) : Expands (Expand.compile U i) (Monoasm.compile (i.map ρ σ)) := by
  cases i
  case Movq a b =>
    simp only [Inst.exprs, Inst.labels, List.mem_append, or_imp, forall_and] at hE hF
    exact by_movq H hE.1 hE.2 hF.1 hF.2
  case Xchg sz a b =>
    simp only [Inst.exprs, Inst.labels, List.mem_append, or_imp, forall_and] at hE hF
    obtain ⟨h1, h2⟩ := hE
    obtain ⟨l1, l2⟩ := hF
    cases sz <;> cases a <;> cases b <;> first | exact rfl | (show By _ _; by_all; done)
  case Testq a b =>
    simp only [Inst.exprs, Inst.labels, List.mem_append, or_imp, forall_and] at hE hF
    obtain ⟨h1, h2⟩ := hE
    cases a <;> cases b <;> (show By _ _; by_all; done)
  case Testb a b =>
    simp only [Inst.exprs, Inst.labels, List.mem_append, or_imp, forall_and] at hE hF
    obtain ⟨h1, h2⟩ := hE
    cases a <;> cases b <;> (show By _ _; by_all; done)
  case Movl a b =>
    simp only [Inst.exprs, Inst.labels, List.mem_append, or_imp, forall_and] at hE hF
    exact by_movl H hE.1 hE.2 hF.1 hF.2
  case Movw a b =>
    simp only [Inst.exprs, Inst.labels, List.mem_append, or_imp, forall_and] at hE hF
    exact by_movw H hE.1 hE.2 hF.1 hF.2
  case Movb a b =>
    simp only [Inst.exprs, Inst.labels, List.mem_append, or_imp, forall_and] at hE hF
    exact by_movb H hE.1 hE.2 hF.1 hF.2
  case Call d =>
    cases d
    case rel l =>
      have hl : F l := hF l (by simp [Inst.labels, Dest.labels])
      show By _ _; by_all
    all_goals first | exact rfl | (show By _ _; by_all; done)
  case Jmp d =>
    cases d
    case rel l =>
      have hl : F l := hF l (by simp [Inst.labels, Dest.labels])
      show By _ _; by_all
    all_goals first | exact rfl | (show By _ _; by_all; done)
  case Jcc c l =>
    have hl : F l := hF l (by simp [Inst.labels])
    show By _ _; by_all
  case Label l =>
    have hl : F l := hF l (by simp [Inst.labels])
    show By _ _; by_all
  case Imul a b =>
    simp only [Inst.exprs, Inst.labels, List.mem_append, or_imp, forall_and] at hE hF
    obtain ⟨h1, h2⟩ := hE
    obtain ⟨l1, l2⟩ := hF
    cases a <;> cases b <;> first | exact rfl | (show By _ _; by_all; done)
  case Lea a b =>
    simp only [Inst.exprs, Inst.labels, List.mem_append, or_imp, forall_and] at hE hF
    obtain ⟨h1, h2⟩ := hE
    obtain ⟨l1, l2⟩ := hF
    cases a <;> cases b <;> first | exact rfl | (show By _ _; by_all; done)
  case Movsd a b =>
    simp only [Inst.exprs, Inst.labels, List.mem_append, or_imp, forall_and] at hE hF
    obtain ⟨h1, h2⟩ := hE
    obtain ⟨l1, l2⟩ := hF
    cases a <;> cases b <;> first | exact rfl | (show By _ _; by_all; done)
  case Cmovcc sz c a b =>
    simp only [Inst.exprs, Inst.labels, List.mem_append, or_imp, forall_and] at hE hF
    obtain ⟨h1, h2⟩ := hE
    cases sz <;> first | exact rfl | (show By _ _; by_all; done)
  case Roundpd a b e =>
    simp only [Inst.exprs, Inst.labels, List.mem_append, or_imp, forall_and] at hE hF
    obtain ⟨⟨h1, h2⟩, h3⟩ := hE
    show By _ _; by_all
  case Idiv a => exact by_divide_op (sz := .QWORD) (sg := true) H hE hF
  case Idivl a => exact by_divide_op (sz := .DWORD) (sg := true) H hE hF
  case Div a => exact by_divide_op (sz := .QWORD) (sg := false) H hE hF
  case Divl a => exact by_divide_op (sz := .DWORD) (sg := false) H hE hF
  case Pushq a => exact by_push_pop H hE hF
  case Popq a => exact by_push_pop H hE hF
  case Negq a => show By _ _; by_all
  case Setcc c a => show By _ _; by_all
  case Add sz a b =>
    simp only [Inst.exprs, Inst.labels, List.mem_append, or_imp, forall_and] at hE hF
    exact by_binary_op H hE.1 hE.2 hF.1 hF.2
  case Or sz a b =>
    simp only [Inst.exprs, Inst.labels, List.mem_append, or_imp, forall_and] at hE hF
    exact by_binary_op H hE.1 hE.2 hF.1 hF.2
  case Adc sz a b =>
    simp only [Inst.exprs, Inst.labels, List.mem_append, or_imp, forall_and] at hE hF
    exact by_binary_op H hE.1 hE.2 hF.1 hF.2
  case Sbb sz a b =>
    simp only [Inst.exprs, Inst.labels, List.mem_append, or_imp, forall_and] at hE hF
    exact by_binary_op H hE.1 hE.2 hF.1 hF.2
  case And sz a b =>
    simp only [Inst.exprs, Inst.labels, List.mem_append, or_imp, forall_and] at hE hF
    exact by_binary_op H hE.1 hE.2 hF.1 hF.2
  case Sub sz a b =>
    simp only [Inst.exprs, Inst.labels, List.mem_append, or_imp, forall_and] at hE hF
    exact by_binary_op H hE.1 hE.2 hF.1 hF.2
  case Xor sz a b =>
    simp only [Inst.exprs, Inst.labels, List.mem_append, or_imp, forall_and] at hE hF
    exact by_binary_op H hE.1 hE.2 hF.1 hF.2
  case Cmp sz a b =>
    simp only [Inst.exprs, Inst.labels, List.mem_append, or_imp, forall_and] at hE hF
    exact by_binary_op H hE.1 hE.2 hF.1 hF.2
  all_goals first
    | (show By _ _; by_all; done)
    | (simp only [Inst.exprs, Inst.labels, List.mem_append, or_imp, forall_and] at hE hF
       obtain ⟨h1, h2⟩ := hE
       first
       | exact by_shift_op H h1 h2 hF
       | exact by_count_op H h1 h2 hF
       | exact by_binary_sd_op H h1 h2 hF
       | (show By _ _; by_all; done))

theorem by_compileAll (H : Values U E F ρ σ) {is : List (Inst ε lam)}
    (hE : ∀ i ∈ is, ∀ e ∈ i.exprs, E e) (hF : ∀ i ∈ is, ∀ l ∈ i.labels, F l) :
    Expands (Expand.compileAll U is) (Monoasm.compileAll (is.map (Inst.map ρ σ))) := by
  induction is with
  | nil => exact By.pure
  | cons i is ih =>
    have h1 := by_compile H (hE i (by simp)) (hF i (by simp))
    have h2 := ih (fun j hj => hE j (by simp [hj])) (fun j hj => hF j (by simp [hj]))
    simp only [List.map_cons, Expand.compileAll, Monoasm.compileAll]
    revert h1 h2
    cases Expand.compile U i <;> cases Monoasm.compile (i.map ρ σ) <;>
      cases Expand.compileAll U is <;> cases Monoasm.compileAll (is.map (Inst.map ρ σ)) <;>
      simp only [Expands] <;> intro h1 h2 <;> first | exact h1 | exact h1.elim | exact h2.elim | exact h2 | skip
    exact By.bind h1 fun _ => h2

theorem by_monoasm (H : Values U E F ρ σ) {is : List (Inst ε lam)}
    (hE : ∀ i ∈ is, ∀ e ∈ i.exprs, E e) (hF : ∀ i ∈ is, ∀ l ∈ i.labels, F l) :
    Expands (Expand.monoasm U is) (Monoasm.compileAll (is.map (Inst.map ρ σ))) := by
  have h := by_compileAll H hE hF
  unfold Expand.monoasm
  revert h
  cases Expand.compileAll U is <;> cases Monoasm.compileAll (is.map (Inst.map ρ σ)) <;>
    simp only [Expands] <;> intro h <;> first | exact h | exact h.elim | skip
  exact By.ok (by decide) h

end Monoasm
