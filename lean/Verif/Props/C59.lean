import Verif.Props.C42
/-
  C59: displacements computed at run time. `[b + (e)]` and `[b - (e)]` address the memory at distance
  `e`, respectively `-e`.

  The property is false. The expansion converts `e` by `as i32`, without a check of the range (immediate
  operands are checked), so that a displacement which does not fit is silently replaced by another one.
  The sign in front of a label is dropped.
-/

namespace Monoasm
open Spec

variable {X : RustExpr} {b : Register (List Tok)} {ts : List Tok} {sc : MScale (List Tok)}
  {rel : Nat → BitVec 64} {ρ : List Tok → Val} {σ : String → Nat} {e : List Tok}

/-- Both forms are accepted. The displacement is exact iff it is in the range of `i32`. -/
theorem C59_exact (hX : Takes X) (hf : Front X b sc ts) (he : IsExpr X e) :
    (∃ a, indAddrBody X (ts ++ [.punct '+', .group .paren e]) = .ok (a, []) ∧ a.base = b ∧ a.scale = sc
      ∧ (disp rel (a.disp.map ρ σ) = ρ e ↔ fits 32 (ρ e)))
    ∧ (∃ a, indAddrBody X (ts ++ [.punct '-', .group .paren e]) = .ok (a, []) ∧ a.base = b ∧ a.scale = sc
      ∧ (disp rel (a.disp.map ρ σ) = -ρ e ↔ fits 32 (-ρ e))) := by
  refine ⟨⟨_, front_ok hX hf (.plusExpr he) (by simp), rfl, rfl, signExtend_eq_iff _⟩,
    ⟨_, front_ok hX hf (.minusExpr he) (by simp), rfl, rfl, ?_⟩⟩
  rw [← signExtend_eq_iff]
  show (-(ρ e).setWidth 32).signExtend 64 = _ ↔ _
  rw [show -(ρ e).setWidth 32 = (-ρ e).setWidth 32 from (BitVec.setWidth_neg_of_le (by decide)).symm]

/-- So the memory operand has the displacement written, if that is in the range: the machine code of
    `lea r, [.. + (e)]` loads the address at distance `e`, that of `lea r, [.. - (e)]` the one at `-e`. -/
theorem C59_partial (hX : Takes X) (hf : Front X b sc ts) (he : IsExpr X e) {r : Register Val} {g : X86.Gpr} (hg : gpr r = some g) :
    (fits 32 (ρ e) → ∃ a, indAddrBody X (ts ++ [.punct '+', .group .paren e]) = .ok (a, []) ∧ a.base = b ∧ a.scale = sc
      ∧ ∀ s0 s1 la memory A after, Runs (.Lea (.reg r) (.ind (a.map ρ σ))) s0 s1 → Linked s0 s1 la memory → Near la (here s1) →
        addr (dist la (here s1)) (a.map ρ σ) = some A →
        X86.decode (bytes memory (here s0) (here s1 - here s0) ++ after) = some (.lea .q (.gpr g) A, after) ∧ A.disp = ρ e)
    ∧ (fits 32 (-ρ e) → ∃ a, indAddrBody X (ts ++ [.punct '-', .group .paren e]) = .ok (a, []) ∧ a.base = b ∧ a.scale = sc
      ∧ ∀ s0 s1 la memory A after, Runs (.Lea (.reg r) (.ind (a.map ρ σ))) s0 s1 → Linked s0 s1 la memory → Near la (here s1) →
        addr (dist la (here s1)) (a.map ρ σ) = some A →
        X86.decode (bytes memory (here s0) (here s1 - here s0) ++ after) = some (.lea .q (.gpr g) A, after) ∧ A.disp = -ρ e) := by
  constructor <;> intro h
  · refine ⟨_, front_ok hX hf (.plusExpr he) (by simp), rfl, rfl, fun s0 s1 la memory A after h1 h2 h3 h4 => ?_⟩
    obtain ⟨h5, h6⟩ := C42_encoded hg h1 h2 h3 h4 after
    exact ⟨h5, h6.trans ((signExtend_eq_iff _).2 h)⟩
  · refine ⟨_, front_ok hX hf (.minusExpr he) (by simp), rfl, rfl, fun s0 s1 la memory A after h1 h2 h3 h4 => ?_⟩
    obtain ⟨h5, h6⟩ := C42_encoded hg h1 h2 h3 h4 after
    refine ⟨h5, h6.trans ?_⟩
    rw [← (signExtend_eq_iff _).2 h, BitVec.setWidth_neg_of_le (by decide)]
    rfl

/-- **Other displacements are replaced**: `addq [rcx + (e)], rax` with `e = 2^32 + 8` is assembled as
    `addq [rcx + 8], rax`, in every state, although the numbers are different. -/
theorem C59_violated :
    indAddrBody exExpr [.ident "rcx", .punct '+', .group .paren [.ident "e"]] = .ok (⟨.reg 1, .none, .expr false [.ident "e"]⟩, [])
    ∧ compile (.Add .QWORD (.ind ⟨.reg 1, .none, .expr false 0x100000008⟩) (.reg (.reg 0)))
      = compile (.Add .QWORD (.ind ⟨.reg 1, .none, .imm 8⟩) (.reg (.reg 0))) := ⟨rfl, rfl⟩

/-- Only the low 32 bits matter: any two values with the same low 32 bits give the same memory operand. -/
theorem C59_truncated (b : Register Val) (sc : MScale Val) (neg : Bool) {v w : Val} (h : v.setWidth 32 = w.setWidth 32) :
    IndAddr.toRm ⟨b, sc, .expr neg v⟩ = IndAddr.toRm ⟨b, sc, .expr neg w⟩ := by
  cases neg <;> simp only [IndAddr.toRm, MDisp.toDisp, h]

/-- **The sign in front of a label is dropped**: `[.. - l]` is read as `[.. + l]`. -/
theorem C59_label (hX : Takes X) (hf : Front X b sc ts) {l : String} (hl : NotReg l) :
    indAddrBody X (ts ++ [.punct '-', .ident l]) = .ok (⟨b, sc, .label l⟩, [])
    ∧ indAddrBody X (ts ++ [.punct '+', .ident l]) = .ok (⟨b, sc, .label l⟩, []) := by
  refine ⟨front_ok hX hf .minusLabel (by simp), ?_⟩
  rw [indAddrBody_ok hX]
  cases hf with
  | base hb => exact .disp hb (.some .plusLabel) fun l' h => by cases h; exact hl
  | index hb hi hk =>
    rw [List.append_assoc, List.cons_append]
    exact .index hb hi hk (.some .plusLabel)

/-- `lea rax, [rbp + rcx*8 - (e)]` with `e = 24`. -/
example : ∃ a s1, Front exExpr (.reg 5) (.s1 3 (.reg 1)) [.ident "rbp", .punct '+', .ident "rcx", .punct '*', .int 8 ""]
    ∧ IsExpr exExpr [.ident "e"] ∧ fits 32 (-24)
    ∧ indAddrBody exExpr [.ident "rbp", .punct '+', .ident "rcx", .punct '*', .int 8 "", .punct '-', .group .paren [.ident "e"]] = .ok (a, [])
    ∧ Runs (.Lea (.reg (.reg 0)) (.ind (a.map (fun _ => 24) fun _ => 0))) ex0 s1
    ∧ X86.decode (bytes s1.mem (here ex0) (here s1 - here ex0)) = some (.lea .q (.gpr 0) ⟨.gpr 5, some (1, 3), -24⟩, []) := by
  have hf : Front exExpr (.reg 5) (.s1 3 (.reg 1)) [.ident "rbp", .punct '+', .ident "rcx", .punct '*', .int 8 ""] :=
    .index (tb := [.ident "rbp"]) (ti := [.ident "rcx"]) (.name (regFromStr_some.1 rfl)) (.name (regFromStr_some.1 rfl)) (.some (k := 3) (by decide))
  obtain ⟨a, h1, -, -, h2⟩ := (C59_partial (ρ := fun _ => 24) (σ := fun _ => 0) (e := [.ident "e"]) takes_exExpr hf rfl (r := .reg 0) (g := 0) rfl).2 (by decide)
  obtain ⟨s1, h3⟩ := (correct (i := .Lea (.reg (.reg 0)) (.ind ⟨.reg 5, .s1 3 (.reg 1), .expr true 24⟩)) (isMove_accepted (.lea _ _))
    (by simp) (by simp)).assembles ex0
    ⟨fun _ => 0, _, rfl⟩ (by intro n v h; cases h)
    (by simp [Known, Inst.mentions, Inst.labels, RmOperand.labels, IndAddr.labels, MDisp.labels]) room_ex0
  have hl := linked_self h3 (by simp [Inst.mentions, Inst.labels, RmOperand.labels, IndAddr.labels, MDisp.labels]) (fun _ => here s1)
  have ha : a = ⟨.reg 5, .s1 3 (.reg 1), .expr true [.ident "e"]⟩ := by
    have h : Except.ok (a, []) = Except.ok (⟨.reg 5, .s1 3 (.reg 1), .expr true [.ident "e"]⟩, []) := h1.symm.trans rfl
    cases h; rfl
  subst ha
  refine ⟨_, s1, hf, rfl, by decide, h1, h3, ?_⟩
  have h4 := h2 _ _ _ _ _ [] h3 hl (by intro l; simp) rfl
  rw [List.append_nil] at h4
  exact h4.1

/-- `2^32 + 8` does not fit, `e` is no register. -/
example : ¬ fits 32 0x100000008 ∧ NotReg "e" := by
  refine ⟨by decide, by decide, fun n h => ?_⟩
  have h1 := regFromStr_some.2 h
  rw [show regFromStr "e" = none by decide +kernel] at h1
  cases h1

end Monoasm
