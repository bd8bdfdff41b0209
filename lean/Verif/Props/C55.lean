import Verif.Proofs.Text
/-
  C55: from the text of a macro call to its effect.
-/

namespace Monoasm
open Spec

/-- The expansion of a macro call whose text uses none of the names `jit`, `imm`, `rm_op`, `op1`, `op2`
    assembles the statements of the text one after the other, each with the values that the variables
    have at the call - also when an instruction panics -, provided that the evaluation of the operands does
    not panic; it is rejected by the macro if and only if one
    of the statements has operands of an unsupported form. -/
theorem C55 {text : String} {is} (h : statements text = some is) (ha : ∀ i ∈ is, Avoids Operand.names id i) (vars labels)
    (hv : ∀ i ∈ is, ∀ e ∈ i.exprs, e.panics vars = false) :
    ∃ as, assemble vars labels text = some as
    ∧ ((∀ i ∈ as, Accepted i) → ∃ g, Expand.monoasm (scope vars labels) is = .ok g
        ∧ ∀ s w, code (g (start s w)) = runOps (as.map .inst) s)
    ∧ ((∃ i ∈ as, ¬ Accepted i) → ∃ e, Expand.monoasm (scope vars labels) is = .error e) := by
  have H := C47_values_partial (lexical_scope vars labels) ha (ρ := Operand.eval vars) fun i hi e he w => by
    show (if e.panics vars then none else some (e.eval vars)) = _
    rw [hv i hi e he]; rfl
  refine ⟨is.map (Inst.map (Operand.eval vars) labels), by rw [assemble, h]; rfl, fun hok => ?_, fun hno => ?_⟩
  · obtain ⟨m, hm, e⟩ := compileAll_runs _ hok
    rw [show (fun l => (scope vars labels).label l userScope) = labels from rfl, hm] at H
    obtain ⟨g, hg, hc⟩ := H
    exact ⟨g, hg, fun s w => (hc s w).trans (e s)⟩
  · obtain ⟨e, he⟩ := compileAll_rejects _ hno
    rw [show (fun l => (scope vars labels).label l userScope) = labels from rfl, he] at H
    exact ⟨e, H⟩

/-- The conditions are met by a statement of the documentation. -/
example (vars : String → Spec.Val) : ∃ is, statements "subq rsp, ((locals + locals % 2)*8);" = some is
    ∧ (∀ i ∈ is, Avoids Operand.names id i) ∧ ∀ i ∈ is, ∀ e ∈ i.exprs, e.panics vars = false := by
  refine ⟨[.Sub .QWORD (.reg (.reg 4)) (.imm (.mul (.add (.var "locals") (.rem (.var "locals") (.value 2))) (.value 8)))], by rfl, by decide +kernel, ?_⟩
  intro i hi e he
  obtain rfl := List.mem_singleton.1 hi
  simp only [Inst.exprs, RmOperand.exprs, Register.exprs, RmiOperand.exprs, List.nil_append, List.mem_singleton] at he
  subst he
  rfl

-- The texts of the tests avoid the names (one at a time, to spare the memory of the checker).

set_option Elab.async false

example : avoids tests.udiv = true := by decide +kernel
example : avoids tests.idiv = true := by decide +kernel
example : avoids tests.divl = true := by decide +kernel
example : avoids tests.idivl = true := by decide +kernel
example : avoids tests.idivl_rem = true := by decide +kernel
example : avoids tests.cdq = true := by decide +kernel
example : avoids tests.shll = true := by decide +kernel
example : avoids tests.shrl = true := by decide +kernel
example : avoids tests.sall = true := by decide +kernel
example : avoids tests.sarl = true := by decide +kernel
example : avoids tests.roll = true := by decide +kernel
example : avoids tests.rorl = true := by decide +kernel
example : avoids tests.popcntq = true := by decide +kernel
example : avoids tests.lzcntq = true := by decide +kernel
example : avoids tests.tzcntq = true := by decide +kernel
example : avoids tests.lzcntl = true := by decide +kernel
example : avoids tests.tzcntl = true := by decide +kernel
example : avoids tests.popcntl = true := by decide +kernel
example : avoids tests.andpd = true := by decide +kernel
example : avoids tests.xorpd = true := by decide +kernel
example : avoids tests.minmaxsd = true := by decide +kernel
example : avoids tests.roundpd = true := by decide +kernel
example : avoids tests.cvttsd2si = true := by decide +kernel

end Monoasm
