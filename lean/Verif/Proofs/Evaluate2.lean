import Verif.Proofs.Evaluate
/-
  Every statement: evaluation in the order of `Spec.evaluate`, then assembling.
-/

set_option linter.unusedSimpArgs false
set_option linter.unusedVariables false
set_option linter.unusedSectionVars false

namespace Monoasm
open Spec G JitMemory
attribute [local irreducible] G.regRm G.arg1 G.letImm G.jit G.letVar
  G.block G.eval G.label G.reg G.xmm G.panic

variable {ε lam ω : Type} {E : ε → Prop} {F : lam → Prop} {U : User ε lam ω}
  {S : JitMemory → JitMemory → Prop} {α β γ δ : Type}

theorem W.assoc_pure (x : W ω α) (k : α → β) (f : β → W ω γ) :
    ((x >>= fun a => Pure.pure (k a)) >>= f) = (x >>= fun a => f (k a)) := by
  funext w
  rcases hx : x w with ⟨_ | a, w1⟩
  · rw [W.bind_none hx, W.bind_none (W.bind_none hx)]
  · rw [W.bind_some hx, W.bind_some (W.bind_some (f := fun a => Pure.pure (k a)) hx)]

theorem evRm_reg (r : Register ε) (f : RmOperand V DestLabel → W ω γ) :
    (evRm U (.reg r) >>= f) = (evReg U r >>= fun r => f (.reg r)) := W.assoc_pure _ _ _

theorem evRm_ind (a : IndAddr ε lam) (f : RmOperand V DestLabel → W ω γ) :
    (evRm U (.ind a) >>= f) = (evInd U a >>= fun r => f (.ind r)) := W.assoc_pure _ _ _

theorem evXm_xmm (r : XmmReg ε) (f : XmOperand V DestLabel → W ω γ) :
    (evXm U (.xmm r) >>= f) = (evXmm U r >>= fun r => f (.xmm r)) := W.assoc_pure _ _ _

theorem evXm_ind (a : IndAddr ε lam) (f : XmOperand V DestLabel → W ω γ) :
    (evXm U (.ind a) >>= f) = (evInd U a >>= fun r => f (.ind r)) := W.assoc_pure _ _ _

theorem evRmi_imm (i : ε) (f : RmiOperand V DestLabel → W ω γ) :
    (evRmi U (.imm i) >>= f) = (ev U i >>= fun r => f (.imm r)) := W.assoc_pure _ _ _

theorem evRmi_reg (r : Register ε) (f : RmiOperand V DestLabel → W ω γ) :
    (evRmi U (.reg r) >>= f) = (evReg U r >>= fun r => f (.reg r)) := W.assoc_pure _ _ _

theorem evRmi_ind (a : IndAddr ε lam) (f : RmiOperand V DestLabel → W ω γ) :
    (evRmi U (.ind a) >>= f) = (evInd U a >>= fun r => f (.ind r)) := W.assoc_pure _ _ _

theorem Gives.xm_xmm (H : Knows U E F) {r : XmmReg ε} (h : ∀ e ∈ r.exprs, E e) :
    Gives (G.xm U (.xmm r) : G ε lam ω Rm) (evXmm U r) (fun r => Rm.reg r.toReg) := Gives.xmm_reg H h

/-- In `if !cl { panic!(..) }; ..`. -/
theorem Does.stop {e : Panic} {y : W ω γ} {g : G ε lam ω Unit} (h0 : ∀ s, S s s) :
    Does S (do G.block (G.panic e); g) (fun _ => M.panic e) y := by
  intro st c
  have he : (do G.block (G.panic e); g : G ε lam ω Unit) st = .panic e st := by
    refine G.bind_panic ?_
    unfold G.block G.panic; rfl
  rcases y st.world with ⟨_ | b, w⟩
  · exact ⟨e, st, he, h0 _⟩
  · exact ⟨e, st, he, rfl, Or.inl rfl⟩

/-- What an accepted statement does. -/
def runE : Expansion → M Unit
  | .ok m => m
  | .error _ => pure ()

syntax "ev_val" : tactic
macro_rules
  | `(tactic| ev_val) => `(tactic| first
      | exact Gives.reg (by assumption) (by by_leaf)
      | exact Gives.xmm (by assumption) (by by_leaf)
      | exact Gives.rm_reg (by assumption) (by by_leaf)
      | exact Gives.xm_xmm (by assumption) (by by_leaf)
      | exact Gives.xmm_reg (by assumption) (by by_leaf)
      | exact Gives.ind (by assumption) (by by_leaf) (by by_leaf)
      | exact Gives.letImm (by assumption) (by by_leaf)
      | exact Gives.eval (by assumption) (by by_leaf))

syntax "ev_eq" : tactic
macro_rules
  | `(tactic| ev_eq) => `(tactic| (intros; simp only [*]; first
      | rfl
      | (simp only [runE, movq, movl, movw, movb, binary_op, binary_opq, binary_opl, binary_opw, binary_opb, shift_op,
          count_op, divide_op, push_pop, binary_sd_op, if_true, if_false, Bool.false_eq_true, *]; done)
      | (simp only [runE, movq, movl, movw, movb, binary_op, binary_opq, binary_opl, binary_opw, binary_opb, shift_op,
          count_op, divide_op, push_pop, binary_sd_op, if_true, if_false, Bool.false_eq_true, *]; rfl)))

syntax "ev_inner" : tactic
macro_rules
  | `(tactic| ev_inner) => `(tactic| first
      | exact Does.arg1 (fun _ => rfl) (by ev_val)
      | exact Does.arg1_jit (fun _ => rfl) (by ev_val)
      | exact Does.panic (fun _ => rfl)
      | apply Does.block
      | apply Does.letVar (by decide))

syntax "ev_step" : tactic
macro_rules
  | `(tactic| ev_step) => `(tactic| first
      | refine Does.block ?_
      | refine Does.letVar (by decide) ?_
      | (unfold G.tryI8; split <;> (try dsimp only))
      | (unfold G.tryI16; split <;> (try dsimp only))
      | (unfold G.tryI32; split <;> (try dsimp only))
      | (refine Does.jit ?_; ev_eq; done)
      | (refine Does.regRm (by assumption) (by ev_val) (by ev_val) ?_; ev_eq; done)
      | (refine Does.emit_regRm (by assumption) (by assumption) (by ev_val) (by ev_val) ?_; ev_eq; done)
      | (refine Does.map (Does.arg1 (by assumption) (by ev_val)) ?_; ev_eq; done)
      | (refine Does.map (Does.arg1_jit (by assumption) (by ev_val)) ?_; ev_eq; done)
      | (refine Does.map (Does.panic (by assumption)) ?_; ev_eq; done)
      | (refine Does.map (Does.message (by assumption) (by ev_val)) ?_; ev_eq; done)
      | (refine Does.map (Does.stop (by assumption)) ?_; ev_eq; done)
      | (apply Does.emit (by assumption) (by assumption); (· repeat' ev_inner); (· ev_eq; done))
      | (refine Does.val_bind (by assumption) (by ev_val) (fun a => ?_); (try dsimp only [id]))
      | split)

syntax "ev_all" : tactic
macro_rules
  | `(tactic| ev_all) => `(tactic| (repeat' ev_step))

section
variable (H : Knows U E F) (h0 : ∀ s, S s s) (h1 : ∀ b s s', emitb b s = .ok () s' → S s s') {g : G ε lam ω Unit}
  {I : γ → M Unit} {J : Inst V DestLabel → M Unit}
include H h0 h1

theorem ev_movl {op1 : RmOperand ε lam} {op2 : RmiOperand ε lam} {k : RmOperand V DestLabel → RmiOperand V DestLabel → γ}
    (hk : ∀ a b, I (k a b) = runE (movl a b)) (hE : ∀ e ∈ op1.exprs, E e) (hE' : ∀ e ∈ op2.exprs, E e)
    (l1 : ∀ l ∈ op1.labels, F l) (l2 : ∀ l ∈ op2.labels, F l)
    (hg : Expand.movl U op1 op2 = .ok g) : Does S g I (evArith U k op1 op2) := by
  cases op1 <;> cases op2 <;> cases hg <;> simp only [evArith, evRm_reg, evRm_ind]
  all_goals ev_all

theorem ev_movw {op1 : RmOperand ε lam} {op2 : RmiOperand ε lam} {k : RmOperand V DestLabel → RmiOperand V DestLabel → γ}
    (hk : ∀ a b, I (k a b) = runE (movw a b)) (hE : ∀ e ∈ op1.exprs, E e) (hE' : ∀ e ∈ op2.exprs, E e)
    (l1 : ∀ l ∈ op1.labels, F l) (l2 : ∀ l ∈ op2.labels, F l)
    (hg : Expand.movw U op1 op2 = .ok g) : Does S g I (evArith U k op1 op2) := by
  cases op1 <;> cases op2 <;> cases hg <;> simp only [evArith, evRm_reg, evRm_ind]
  all_goals ev_all

theorem ev_movb {op1 : RmOperand ε lam} {op2 : RmiOperand ε lam} {k : RmOperand V DestLabel → RmiOperand V DestLabel → γ}
    (hk : ∀ a b, I (k a b) = runE (movb a b)) (hE : ∀ e ∈ op1.exprs, E e) (hE' : ∀ e ∈ op2.exprs, E e)
    (l1 : ∀ l ∈ op1.labels, F l) (l2 : ∀ l ∈ op2.labels, F l)
    (hg : Expand.movb U op1 op2 = .ok g) : Does S g I (evArith U k op1 op2) := by
  cases op1 <;> cases op2 <;> cases hg <;> simp only [evArith, evRm_reg, evRm_ind]
  all_goals ev_all

theorem ev_binary_opq {mr d : BitVec 8} {op1 : RmOperand ε lam} {op2 : RmiOperand ε lam} {k : RmOperand V DestLabel → RmiOperand V DestLabel → γ}
    (hk : ∀ a b, I (k a b) = runE (binary_opq mr d a b)) (hE : ∀ e ∈ op1.exprs, E e) (hE' : ∀ e ∈ op2.exprs, E e)
    (l1 : ∀ l ∈ op1.labels, F l) (l2 : ∀ l ∈ op2.labels, F l)
    (hg : Expand.binary_opq U mr d op1 op2 = .ok g) : Does S g I (evArith U k op1 op2) := by
  cases op1 <;> cases op2 <;> cases hg <;> simp only [evArith, evRm_reg, evRm_ind]
  all_goals ev_all

theorem ev_binary_opl {mr d : BitVec 8} {op1 : RmOperand ε lam} {op2 : RmiOperand ε lam} {k : RmOperand V DestLabel → RmiOperand V DestLabel → γ}
    (hk : ∀ a b, I (k a b) = runE (binary_opl mr d a b)) (hE : ∀ e ∈ op1.exprs, E e) (hE' : ∀ e ∈ op2.exprs, E e)
    (l1 : ∀ l ∈ op1.labels, F l) (l2 : ∀ l ∈ op2.labels, F l)
    (hg : Expand.binary_opl U mr d op1 op2 = .ok g) : Does S g I (evArith U k op1 op2) := by
  cases op1 <;> cases op2 <;> cases hg <;> simp only [evArith, evRm_reg, evRm_ind]
  all_goals ev_all

theorem ev_binary_opw {mr d : BitVec 8} {op1 : RmOperand ε lam} {op2 : RmiOperand ε lam} {k : RmOperand V DestLabel → RmiOperand V DestLabel → γ}
    (hk : ∀ a b, I (k a b) = runE (binary_opw mr d a b)) (hE : ∀ e ∈ op1.exprs, E e) (hE' : ∀ e ∈ op2.exprs, E e)
    (l1 : ∀ l ∈ op1.labels, F l) (l2 : ∀ l ∈ op2.labels, F l)
    (hg : Expand.binary_opw U mr d op1 op2 = .ok g) : Does S g I (evArith U k op1 op2) := by
  cases op1 <;> cases op2 <;> cases hg <;> simp only [evArith, evRm_reg, evRm_ind]
  all_goals ev_all

theorem ev_binary_opb {mr d : BitVec 8} {op1 : RmOperand ε lam} {op2 : RmiOperand ε lam} {k : RmOperand V DestLabel → RmiOperand V DestLabel → γ}
    (hk : ∀ a b, I (k a b) = runE (binary_opb mr d a b)) (hE : ∀ e ∈ op1.exprs, E e) (hE' : ∀ e ∈ op2.exprs, E e)
    (l1 : ∀ l ∈ op1.labels, F l) (l2 : ∀ l ∈ op2.labels, F l)
    (hg : Expand.binary_opb U mr d op1 op2 = .ok g) : Does S g I (evArith U k op1 op2) := by
  cases op1 <;> cases op2 <;> cases hg <;> simp only [evArith, evRm_reg, evRm_ind]
  all_goals ev_all

theorem ev_binary_op {sz : OperandSize} {mr d : BitVec 8} {op1 : RmOperand ε lam} {op2 : RmiOperand ε lam}
    {k : RmOperand V DestLabel → RmiOperand V DestLabel → γ}
    (hk : ∀ a b, I (k a b) = runE (binary_op sz mr d a b)) (hE : ∀ e ∈ op1.exprs, E e) (hE' : ∀ e ∈ op2.exprs, E e)
    (l1 : ∀ l ∈ op1.labels, F l) (l2 : ∀ l ∈ op2.labels, F l)
    (hg : Expand.binary_op U sz mr d op1 op2 = .ok g) : Does S g I (evArith U k op1 op2) := by
  cases sz with
  | QWORD => exact ev_binary_opq H h0 h1 hk hE hE' l1 l2 hg
  | DWORD => exact ev_binary_opl H h0 h1 hk hE hE' l1 l2 hg
  | WORD => exact ev_binary_opw H h0 h1 hk hE hE' l1 l2 hg
  | BYTE => exact ev_binary_opb H h0 h1 hk hE hE' l1 l2 hg

theorem ev_shift_op {sz : OperandSize} {d : BitVec 8} {op1 : RmOperand ε lam} {op2 : RiOperand ε}
    {k : RmOperand V DestLabel → RiOperand V → γ}
    (hk : ∀ a b, I (k a b) = runE (shift_op sz d a b)) (hE : ∀ e ∈ op1.exprs, E e) (hE' : ∀ e ∈ op2.exprs, E e)
    (l1 : ∀ l ∈ op1.labels, F l)
    (hg : Expand.shift_op U sz d op1 op2 = .ok g) : Does S g I (evShift U k op1 op2) := by
  cases sz <;> cases op1 <;> cases op2 <;> cases hg <;> simp only [evShift, evRm_reg, evRm_ind]
  all_goals ev_all

theorem ev_count_op {sz : OperandSize} {o : BitVec 8} {op1 : Register ε} {op2 : RmOperand ε lam}
    {k : Register V → RmOperand V DestLabel → γ}
    (hk : ∀ a b, I (k a b) = runE (count_op sz o a b)) (hE : ∀ e ∈ op1.exprs, E e) (hE' : ∀ e ∈ op2.exprs, E e)
    (l2 : ∀ l ∈ op2.labels, F l)
    (hg : Expand.count_op U sz o op1 op2 = .ok g) : Does S g I (evRegRm U k op1 op2) := by
  cases sz <;> cases op2 <;> cases hg <;> simp only [evRegRm, evRm_reg, evRm_ind]
  all_goals ev_all

theorem ev_divide_op {sz : OperandSize} {b : Bool} {op : RmOperand ε lam} {k : RmOperand V DestLabel → γ}
    (hk : ∀ a, I (k a) = runE (divide_op sz b a)) (hE : ∀ e ∈ op.exprs, E e) (l1 : ∀ l ∈ op.labels, F l)
    (hg : Expand.divide_op U sz b op = .ok g) : Does S g I (evOne U k op) := by
  cases sz <;> cases op <;> cases hg <;> simp only [evOne, evRm_reg, evRm_ind]
  all_goals ev_all

theorem ev_push_pop {o : BitVec 8} {om : BitVec 8 × BitVec 8} {op : RmOperand ε lam} {k : RmOperand V DestLabel → γ}
    (hk : ∀ a, I (k a) = runE (push_pop o om a)) (hE : ∀ e ∈ op.exprs, E e) (l1 : ∀ l ∈ op.labels, F l)
    (hg : Expand.push_pop U o om op = .ok g) : Does S g I (evOne U k op) := by
  cases op <;> cases hg <;> simp only [evOne, evRm_reg, evRm_ind]
  all_goals ev_all

theorem ev_binary_sd_op {o : BitVec 8} {op1 : XmmReg ε} {op2 : XmOperand ε lam}
    {k : XmmReg V → XmOperand V DestLabel → γ}
    (hk : ∀ a b, I (k a b) = runE (binary_sd_op o a b)) (hE : ∀ e ∈ op1.exprs, E e) (hE' : ∀ e ∈ op2.exprs, E e)
    (l2 : ∀ l ∈ op2.labels, F l)
    (hg : Expand.binary_sd_op U o op1 op2 = .ok g) : Does S g I (evSse U k op1 op2) := by
  cases op2 <;> cases hg <;> simp only [evSse, evXm_xmm, evXm_ind]
  all_goals ev_all

theorem ev_movq {op1 op2 : MovOperand ε lam} (hk : ∀ a b, J (.Movq a b) = runE (movq a b))
    (hE : ∀ e ∈ op1.exprs, E e) (hE' : ∀ e ∈ op2.exprs, E e)
    (l1 : ∀ l ∈ op1.labels, F l) (l2 : ∀ l ∈ op2.labels, F l)
    (hg : Expand.movq U op1 op2 = .ok g) : Does S g J (evMovq U op1 op2) := by
  cases op1 <;> cases op2
  case reg.imm r i sz =>
    cases sz with
    | none =>
      cases hg; simp only [evMovq]
      refine Does.val_bind h0 (Gives.letImm H (of_single hE')) (fun v => ?_)
      refine Does.val_bind h0 (Gives.reg H hE) (fun _ => Does.letVar (by decide) ?_)
      exact Does.map (Does.arg1_jit h0 (Gives.reg H hE)) fun a s => by rw [hk]; rfl
    | some sz =>
      by_cases hs : sz = .QWORD
      · subst hs; cases hg; simp only [evMovq]
        refine Does.val_bind h0 (Gives.letImm H (of_single hE')) (fun v => ?_)
        refine Does.val_bind h0 (Gives.reg H hE) (fun _ => Does.letVar (by decide) ?_)
        exact Does.map (Does.arg1_jit h0 (Gives.reg H hE)) fun a s => by rw [hk]; rfl
      · simp only [Expand.movq, if_neg hs] at hg; cases hg
  case ind.imm a i sz =>
    cases sz with
    | none => cases hg; simp only [evMovq]; ev_all
    | some sz => cases hg
  all_goals cases hg <;> simp only [evMovq]
  all_goals ev_all

end
end Monoasm
