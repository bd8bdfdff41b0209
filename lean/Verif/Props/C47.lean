import Verif.Proofs.Hygiene5
/-
  C47: macro hygiene. Operand expressions written by the user are evaluated in the user's scope,
  exactly once.

  The macro does not keep this in general. The expansion binds `jit`, `imm`, `rm_op`, `op1` and `op2`
  with call-site hygiene, so these names are captured (`C47_captured`, `C47_captured_inside`); and
  a register expression is evaluated twice by `movq R(e), imm`, `xchgq R(e), R(e')`, `testq R(e), imm`
  and `testb R(e), imm` (`C47_twice`). What remains true is stated with the suffix `_partial`.
-/

namespace Monoasm
open Spec
variable {ε lam ω : Type} {U : User ε lam ω} {names : ε → List String} {lname : lam → String}
  {is : List (Inst ε lam)} {g : G ε lam ω Unit}

/-- Every evaluation gives what it gives in the user's scope, if the statements do not use the names
    that the expansion binds. -/
theorem C47_scope_partial (hL : Lexical U names lname) (hA : ∀ i ∈ is, Avoids names lname i)
    (hg : Expand.monoasm U is = .ok g) (s : JitMemory) (w : ω) :
    ∀ ev ∈ traceOf (g (start s w)), InUserScope U ev := by
  have h := tr_monoasm (E := fun e => ∃ i ∈ is, e ∈ i.exprs) (F := fun l => ∃ i ∈ is, l ∈ i.labels)
    (fun i hi e he => ⟨i, hi, he⟩) (fun i hi l hl => ⟨i, hi, hl⟩) hg (start s w) clean_userScope
  have key : ∀ ev, Good (fun e => ∃ i ∈ is, e ∈ i.exprs) (fun l => ∃ i ∈ is, l ∈ i.labels) ev →
      InUserScope U ev := by
    intro ev hev
    cases ev with
    | expr e hd =>
      obtain ⟨⟨i, hi, he⟩, c⟩ := hev
      exact hL.value e _ _ fun x hx => c x ((hA i hi).1 e he x hx)
    | label l hd =>
      obtain ⟨⟨i, hi, hl⟩, c⟩ := hev
      exact hL.label l _ _ (c _ ((hA i hi).2 l hl))
  revert h
  cases g (start s w) with
  | ok a st' =>
    rintro ⟨_, tr, ht, hgood, _⟩ ev hev
    rw [traceOf, ht] at hev
    exact key ev (hgood ev (by simpa [start] using hev))
  | panic e st' =>
    rintro ⟨tr, ht, hgood⟩ ev hev
    rw [traceOf, ht] at hev
    exact key ev (hgood ev (by simpa [start] using hev))

/-- A run that does not panic evaluates every expression as often as it is written, if none of the
    statements is one of the four that repeat a register. -/
theorem C47_once_partial (hr : ∀ i ∈ is, ¬ Repeats i) (hg : Expand.monoasm U is = .ok g)
    {s : JitMemory} {w : ω} {st : GState ε lam ω} (hrun : g (start s w) = .ok () st) :
    (evaluated st.trace).Perm (is.flatMap Inst.exprs) := by
  have h := tr_monoasm (E := fun e => ∃ i ∈ is, e ∈ i.exprs) (F := fun l => ∃ i ∈ is, l ∈ i.labels)
    (fun i hi e he => ⟨i, hi, he⟩) (fun i hi l hl => ⟨i, hi, hl⟩) hg (start s w) clean_userScope
  rw [hrun] at h
  obtain ⟨_, tr, ht, _, hK⟩ := h
  have : st.trace = tr := by simpa [start] using ht
  rw [this]
  exact hK.2 hr

/-- In general: no expression is left out, and none is evaluated more than twice for each time it is
    written. -/
theorem C47_at_most_twice [DecidableEq ε] (hg : Expand.monoasm U is = .ok g)
    {s : JitMemory} {w : ω} {st : GState ε lam ω} (hrun : g (start s w) = .ok () st) (e : ε) :
    (is.flatMap Inst.exprs).count e ≤ (evaluated st.trace).count e ∧
    (evaluated st.trace).count e ≤ 2 * (is.flatMap Inst.exprs).count e := by
  have h := tr_monoasm (E := fun e => ∃ i ∈ is, e ∈ i.exprs) (F := fun l => ∃ i ∈ is, l ∈ i.labels)
    (fun i hi e he => ⟨i, hi, he⟩) (fun i hi l hl => ⟨i, hi, hl⟩) hg (start s w) clean_userScope
  rw [hrun] at h
  obtain ⟨_, tr, ht, _, hK⟩ := h
  have : st.trace = tr := by simpa [start] using ht
  rw [this]
  exact hK.1 (· == e)

/-- If, besides, the value of an expression does not change during the call, then the call assembles
    the statements with the values that the expressions and labels have in the user's scope. The
    number of evaluations does not matter then. -/
theorem C47_values_partial (hL : Lexical U names lname) (hA : ∀ i ∈ is, Avoids names lname i)
    {ρ : ε → V} (hρ : ∀ i ∈ is, ∀ e ∈ i.exprs, ∀ w, (U.value e userScope w).1 = some (ρ e)) :
    match compileAll (is.map (Inst.map ρ fun l => U.label l userScope)) with
    | .error e => Expand.monoasm U is = .error e
    | .ok m => ∃ g, Expand.monoasm U is = .ok g ∧ ∀ s w, code (g (start s w)) = m s := by
  have H : Values U (fun e => ∃ i ∈ is, e ∈ i.exprs) (fun l => ∃ i ∈ is, l ∈ i.labels) ρ
      (fun l => U.label l userScope) := by
    constructor
    · rintro e ⟨i, hi, he⟩ h c w
      rw [hL.value e h userScope fun x hx => c x ((hA i hi).1 e he x hx)]
      exact hρ i hi e he w
    · rintro l ⟨i, hi, hl⟩ h c
      exact hL.label l _ _ (c _ ((hA i hi).2 l hl))
  have h := by_monoasm H (is := is) (fun i hi e he => ⟨i, hi, he⟩) (fun i hi l hl => ⟨i, hi, hl⟩)
  revert h
  cases Expand.monoasm U is with
  | error e =>
    cases compileAll (is.map (Inst.map ρ fun l => U.label l userScope)) with
    | error e' => intro h; exact congrArg _ h
    | ok m => intro h; exact h.elim
  | ok g =>
    cases compileAll (is.map (Inst.map ρ fun l => U.label l userScope)) with
    | error e' => intro h; exact h.elim
    | ok m =>
      intro h
      refine ⟨g, rfl, fun s w => ?_⟩
      have := h (start s w) clean_userScope
      revert this
      rw [show (start s w : GState ε lam ω).jit = s from rfl]
      cases m s with
      | ok a s' => rintro ⟨st', e, j, _⟩; rw [e, code, j]
      | panic p s' => rintro ⟨st', e, j⟩; rw [e, code, j]

/-! ### Violations -/

/-- Expressions for the witnesses: a literal, a variable, or `{ n += 1; n }`. -/
inductive Expr0 where
  | lit (v : V)
  | var (x : String)
  | next
deriving DecidableEq

/-- A user with variables `imm = 7` and `k = 8` and a counter `n`. -/
def user0 : User Expr0 String Nat where
  value
    | .lit v, _, n => (some v, n)
    | .var x, h, n => (some (match h x with
        | some (.i64 v) => v
        | some (.i32 v) => v.signExtend 64
        | some (.i16 v) => v.signExtend 64
        | some (.i8 v) => v.signExtend 64
        | some _ => 0
        | none => if x = "imm" then 7 else 8), n)
    | .next, _, n => (some (BitVec.ofNat 64 (n + 1)), n + 1)
  label _ _ := 0

def names0 : Expr0 → List String
  | .var x => [x]
  | _ => []

theorem lexical0 : Lexical user0 names0 id where
  value e h h' hx := by
    cases e with
    | lit v => rfl
    | var x =>
      have : h x = h' x := hx x (by simp [names0])
      funext n
      simp [user0, this]
    | next => rfl
  label _ _ _ _ := rfl

/-- `movq rax, 1; movq rbx, (imm);` -/
def capture0 : List (Inst Expr0 String) :=
  [.Movq (.reg (.reg 0)) (.imm (.lit 1) none), .Movq (.reg (.reg 3)) (.imm (.var "imm") none)]

/-- `movq rax, 1; movq rbx, (imm);` stores 1 in `rbx`, not the user's `imm`. -/
theorem C47_captured :
    ∃ g st, Expand.monoasm user0 capture0 = .ok g ∧
      g (start (JitMemory.new 0x1000 fun _ => 0) 0) = .ok () st ∧
      (∃ ev ∈ st.trace, ¬ InUserScope user0 ev) ∧ st.jit.mem (0x1000 + 12) = 1 := by
  refine ⟨_, _, rfl, rfl, ⟨.expr (.var "imm") _, List.mem_append_right _ (List.mem_singleton.2 rfl), ?_⟩,
    by decide +kernel⟩
  intro h
  have := congrArg (fun f => (f 0).1) h
  revert this
  decide +kernel

/-- `addq [rax + (imm)], 3;` -/
def inside0 : List (Inst Expr0 String) :=
  [.Add .QWORD (.ind ⟨.reg 0, .none, .expr false (.var "imm")⟩) (.imm (.lit 3))]

/-- `addq [rax + (imm)], 3;` uses displacement 3. -/
theorem C47_captured_inside :
    ∃ g st, Expand.monoasm user0 inside0 = .ok g ∧
      g (start (JitMemory.new 0x1000 fun _ => 0) 0) = .ok () st ∧
      (∃ ev ∈ st.trace, ¬ InUserScope user0 ev) ∧ st.jit.mem (0x1000 + 3) = 3 := by
  refine ⟨_, _, rfl, rfl, ⟨.expr (.var "imm") _, List.mem_append_right _ (List.mem_singleton.2 rfl), ?_⟩,
    by decide +kernel⟩
  intro h
  have := congrArg (fun f => (f 0).1) h
  revert this
  decide +kernel

/-- A user who can tell the type of `imm`: its width is added to the value, in the highest byte of 32 bits. -/
def user1 : User Expr0 String Nat where
  value
    | .var x, h, n => (some (match h x with
        | some (.i64 v) => v + 0x40000000
        | some (.i32 v) => v.signExtend 64 + 0x20000000
        | some (.i16 v) => v.signExtend 64 + 0x10000000
        | some (.i8 v) => v.signExtend 64 + 0x08000000
        | some _ => 0
        | none => 7), n)
    | e, h, n => user0.value e h n
  label _ _ := 0

/-- The bytes of a statement of `user1`. -/
def bytes1 (i : Inst Expr0 String) (n : Nat) : Option (List Byte) :=
  match Expand.monoasm user1 [i] with
  | .ok g => match g (start (JitMemory.new 0x1000 fun _ => 0) 0) with
    | .ok _ st => some ((List.range n).map fun k => st.jit.mem (0x1000 + k))
    | .panic _ _ => none
  | .error _ => none

/-- What `(imm)` is in a memory operand: the immediate, of the type of the form that is chosen. `movq [rax + (imm)], 0x12345`,
    `movl [rax + (imm)], 0x12345`, `movw [rax + (imm)], 0x1234`, `movb [rax + (imm)], 0x12`, and `addq` with an immediate of 8
    and of 32 bits. -/
theorem C47_captured_types :
    let m : IndAddr Expr0 String := ⟨.reg 0, .none, .expr false (.var "imm")⟩
    bytes1 (.Movq (.ind m) (.imm (.lit 0x12345) none)) 11 = some [0x48, 0xc7, 0x80, 0x45, 0x23, 0x01, 0x20, 0x45, 0x23, 0x01, 0x00]
    ∧ bytes1 (.Movl (.ind m) (.imm (.lit 0x12345))) 10 = some [0xc7, 0x80, 0x45, 0x23, 0x01, 0x20, 0x45, 0x23, 0x01, 0x00]
    ∧ bytes1 (.Movw (.ind m) (.imm (.lit 0x1234))) 9 = some [0x66, 0xc7, 0x80, 0x34, 0x12, 0x00, 0x10, 0x34, 0x12]
    ∧ bytes1 (.Movb (.ind m) (.imm (.lit 0x12))) 7 = some [0xc6, 0x80, 0x12, 0x00, 0x00, 0x08, 0x12]
    ∧ bytes1 (.Add .QWORD (.ind m) (.imm (.lit 0x12))) 8 = some [0x48, 0x83, 0x80, 0x12, 0x00, 0x00, 0x08, 0x12]
    ∧ bytes1 (.Add .QWORD (.ind m) (.imm (.lit 0x1234))) 11 = some [0x48, 0x81, 0x80, 0x34, 0x12, 0x00, 0x20, 0x34, 0x12, 0x00, 0x00] := by
  decide +kernel

/-- `movq R({ n += 1; n }), 5;` evaluates the register twice: `n` ends up as 2. -/
theorem C47_twice :
    ∃ (i : Inst Expr0 String) (g : _) (st : _),
      Expand.monoasm user0 [i] = .ok g ∧ g (start (JitMemory.new 0x1000 fun _ => 0) 0) = .ok () st ∧
      i.exprs = [.next, .lit 5] ∧ evaluated st.trace = [.lit 5, .next, .next] ∧ st.world = 2 :=
  ⟨.Movq (.reg (.expr .next)) (.imm (.lit 5) none), _, _, rfl, rfl, rfl, rfl, rfl⟩

/-- The expressions evaluated for a statement, in their order. -/
def evaluations (i : Inst Expr0 String) : Option (List Expr0) :=
  match Expand.monoasm user0 [i] with
  | .ok g => match g (start (JitMemory.new 0x1000 fun _ => 0) 0) with
    | .ok _ st => some (evaluated st.trace)
    | .panic _ _ => none
  | .error _ => none

/-- `movq` always evaluates the register `R(e)` (here with the number given) twice; the other three do
    so unless it is the register that has a form of its own (rax). -/
theorem C47_repeats :
    evaluations (.Movq (.reg (.expr (.lit 3))) (.imm (.lit 5) none)) = some [.lit 5, .lit 3, .lit 3]
    ∧ evaluations (.Movq (.reg (.expr (.lit 0))) (.imm (.lit 5) none)) = some [.lit 5, .lit 0, .lit 0]
    ∧ evaluations (.Movq (.reg (.expr (.lit 3))) (.imm (.lit 5) (some .QWORD))) = some [.lit 5, .lit 3, .lit 3]
    ∧ evaluations (.Xchg .QWORD (.reg (.expr (.lit 1))) (.reg (.expr (.lit 2)))) = some [.lit 1, .lit 2, .lit 2, .lit 1]
    ∧ evaluations (.Xchg .QWORD (.reg (.expr (.lit 0))) (.reg (.expr (.lit 2)))) = some [.lit 0, .lit 2, .lit 2]
    ∧ evaluations (.Xchg .QWORD (.reg (.expr (.lit 1))) (.reg (.expr (.lit 0)))) = some [.lit 1, .lit 0, .lit 1]
    ∧ evaluations (.Xchg .QWORD (.reg (.expr (.lit 0))) (.reg (.expr (.lit 0)))) = some [.lit 0, .lit 0]
    ∧ evaluations (.Testq (.reg (.expr (.lit 3))) (.imm (.lit 5))) = some [.lit 5, .lit 3, .lit 3]
    ∧ evaluations (.Testq (.reg (.expr (.lit 0))) (.imm (.lit 5))) = some [.lit 5, .lit 0]
    ∧ evaluations (.Testb (.reg (.expr (.lit 3))) (.imm (.lit 5))) = some [.lit 5, .lit 3, .lit 3]
    ∧ evaluations (.Testb (.reg (.expr (.lit 0))) (.imm (.lit 5))) = some [.lit 5, .lit 0] := by
  decide +kernel

/-- The expressions evaluated for a statement that panics. -/
def panicEvaluations (i : Inst Expr0 String) : Option (List Expr0) :=
  match Expand.monoasm user0 [i] with
  | .ok g => match g (start (JitMemory.new 0x1000 fun _ => 0) 0) with
    | .ok _ _ => none
    | .panic _ st => some (evaluated st.trace)
  | .error _ => none

/-- An immediate that is out of range: the messages of `movl`, `movw`, `movb` evaluate the register, those of
    8-bit arithmetic and of `call` the immediate once more, the others nothing. -/
theorem C47_messages :
    let big : Expr0 := .lit 0x100000000
    let r : Register Expr0 := .expr (.lit 3)
    let m : IndAddr Expr0 String := ⟨r, .none, .imm 0⟩
    panicEvaluations (.Movl (.reg r) (.imm big)) = some [big, .lit 3]
    ∧ panicEvaluations (.Movw (.reg r) (.imm big)) = some [big, .lit 3]
    ∧ panicEvaluations (.Movb (.reg r) (.imm big)) = some [big, .lit 3]
    ∧ panicEvaluations (.Movq (.ind m) (.imm big none)) = some [big]
    ∧ panicEvaluations (.Movl (.ind m) (.imm big)) = some [big]
    ∧ panicEvaluations (.Movw (.ind m) (.imm big)) = some [big]
    ∧ panicEvaluations (.Movb (.ind m) (.imm big)) = some [big]
    ∧ (∀ op ∈ [Inst.Add, .Or, .Adc, .Sbb, .And, .Sub, .Xor, .Cmp], ∀ a ∈ [RmOperand.reg r, .ind m],
        panicEvaluations (op .BYTE a (.imm big)) = some [big, big]
        ∧ ∀ sz ∈ [OperandSize.QWORD, .DWORD, .WORD], panicEvaluations (op sz a (.imm big)) = some [big])
    ∧ (∀ op ∈ [Inst.Shl, .Shr, .Sal, .Sar, .Rol, .Ror], ∀ a ∈ [RmOperand.reg r, .ind m], ∀ sz ∈ [OperandSize.QWORD, .DWORD],
        panicEvaluations (op sz a (.imm big)) = some [big] ∧ panicEvaluations (op sz a (.reg r)) = some [.lit 3])
    ∧ (∀ a ∈ [RmOperand.reg r, .ind m],
        panicEvaluations (.Testq a (.imm big)) = some [big] ∧ panicEvaluations (.Testb a (.imm big)) = some [big])
    ∧ panicEvaluations (.Call (.disp big)) = some [big, big] := by
  decide +kernel

/-- The hypotheses are met by `addq [rax + (k)], 3; movl R({ n += 1; n }), 5;`. -/
example :
    let is : List (Inst Expr0 String) :=
      [.Add .QWORD (.ind ⟨.reg 0, .none, .expr false (.var "k")⟩) (.imm (.lit 3)),
       .Movl (.reg (.expr .next)) (.imm (.lit 5))]
    Lexical user0 names0 id ∧ (∀ i ∈ is, Avoids names0 id i) ∧ (∀ i ∈ is, ¬ Repeats i) ∧
    ∃ g st, Expand.monoasm user0 is = .ok g ∧
      g (start (JitMemory.new 0x1000 fun _ => 0) 0) = .ok () st ∧ st.world = 1 := by
  refine ⟨lexical0, ?_, ?_, _, _, rfl, rfl, rfl⟩
  · intro i hi
    simp only [List.mem_cons, List.not_mem_nil, or_false] at hi
    rcases hi with rfl | rfl <;> constructor <;>
      simp [Inst.exprs, Inst.labels, RmOperand.exprs, RmiOperand.exprs, IndAddr.exprs, Register.exprs,
        MScale.exprs, MDisp.exprs, RmOperand.labels, RmiOperand.labels, IndAddr.labels, MDisp.labels,
        names0, reserved]
  · intro i hi
    simp only [List.mem_cons, List.not_mem_nil, or_false] at hi
    rcases hi with rfl | rfl <;> exact id

/-- The hypotheses of `C47_values_partial` are met by `addq [rax + (k)], 3;`. -/
example :
    let is : List (Inst Expr0 String) := [.Add .QWORD (.ind ⟨.reg 0, .none, .expr false (.var "k")⟩) (.imm (.lit 3))]
    Lexical user0 names0 id ∧ (∀ i ∈ is, Avoids names0 id i) ∧
    ∀ i ∈ is, ∀ e ∈ i.exprs, ∀ w, (user0.value e userScope w).1 = some (match e with | .lit v => v | _ => 8) := by
  refine ⟨lexical0, ?_, ?_⟩
  · intro i hi
    simp only [List.mem_cons, List.not_mem_nil, or_false] at hi
    subst hi
    constructor <;>
      simp [Inst.exprs, Inst.labels, RmOperand.exprs, RmiOperand.exprs, IndAddr.exprs, Register.exprs,
        MScale.exprs, MDisp.exprs, RmOperand.labels, RmiOperand.labels, IndAddr.labels, MDisp.labels,
        names0, reserved]
  · intro i hi e he w
    simp only [List.mem_cons, List.not_mem_nil, or_false] at hi
    subst hi
    simp [Inst.exprs, RmOperand.exprs, RmiOperand.exprs, IndAddr.exprs, Register.exprs,
      MScale.exprs, MDisp.exprs] at he
    rcases he with rfl | rfl <;> rfl

end Monoasm
