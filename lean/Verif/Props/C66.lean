import Verif.Proofs.Evaluate3
import Verif.Spec.X86
/-
  C66: side effects and panics in operands. The expressions of a statement are evaluated in a fixed order
  when the statement's turn comes, the statement is assembled with the values obtained, and if an expression
  panics, then nothing of its statement has been assembled.

  The macro keeps this, for statements without the reserved names (C47), with three exceptions, each shown
  by a witness: `xchgq`, `testq` and `testb` with a register expression that has side effects can mix two
  evaluations (`C66_mixed`); many statements emit a prefix byte before the operands are evaluated, and a panic leaves it
  in the code (`C66_stray`), where it changes the next instruction (`C66_stray_harm`); `roundpd` emits all
  but its last byte before the immediate is evaluated (`C66_half`).
-/

namespace Monoasm
open Spec
variable {ε lam ω : Type} {U : User ε lam ω} {names : ε → List String} {lname : lam → String}
  {is : List (Inst ε lam)} {g : G ε lam ω Unit}

/-- The call succeeds with code memory `s'` and world `w'` exactly if evaluating and assembling the
    statements one after the other leads there. -/
theorem C66_order_partial (hL : Lexical U names lname) (hA : ∀ i ∈ is, Avoids names lname i)
    (hu : ∀ i ∈ is, ¬ Unsettled U i) (hg : Expand.monoasm U is = .ok g) {s s' : JitMemory} {w w' : ω} :
    (∃ st, g (start s w) = .ok () st ∧ st.jit = s' ∧ st.world = w') ↔ Assembles U is s w s' w' := by
  obtain ⟨gs, hgs, rfl⟩ := monoasm_inv hg
  have H := knows_of_avoids hL hA
  have hE : ∀ i ∈ is, ∀ e ∈ i.exprs, ∃ i ∈ is, e ∈ i.exprs := fun i hi e he => ⟨i, hi, he⟩
  have hF : ∀ i ∈ is, ∀ l ∈ i.labels, ∃ i ∈ is, l ∈ i.labels := fun i hi e he => ⟨i, hi, he⟩
  rw [block_jit]
  constructor
  · rintro ⟨st, e, rfl, rfl⟩
    cases hr : gs (begun s w) with
    | panic p st1 => rw [hr] at e; cases e
    | ok a st1 =>
      rw [hr] at e; cases e
      exact all_ok H hu hE hF hgs clean_jit hr
  · intro ha
    obtain ⟨st, e, j, hw, _⟩ := all_run H hu hE hF hgs (st := begun s w) clean_jit ha
    rw [e]
    exact ⟨_, rfl, j, hw⟩

/-- If the call panics, then some statements have been assembled, and either the next statement was
    evaluated and assembling it panicked, or an expression of it panicked, and of this statement at most one
    byte has been assembled, or it is a `roundpd` and at most its last byte is missing. (`p = .userCode` in the first case: an expression that
    is evaluated again for the message of a panic.) -/
theorem C66_panic_partial (hL : Lexical U names lname) (hA : ∀ i ∈ is, Avoids names lname i)
    (hu : ∀ i ∈ is, ¬ Unsettled U i) (hg : Expand.monoasm U is = .ok g) {s : JitMemory} {w : ω} {p : Panic}
    {st : GState ε lam ω} (hr : g (start s w) = .panic p st) :
    ∃ is1 i is2 s1 w1, is = is1 ++ i :: is2 ∧ Assembles U is1 s w s1 w1 ∧
      ((∃ j w2 p', evaluate U i w1 = (some j, w2) ∧ (Op.inst j).run s1 = .panic p' st.jit ∧
          (p = p' ∨ p = .userCode)) ∨
       (∃ w2, evaluate U i w1 = (none, w2) ∧ (Stray s1 st.jit ∨ IsRoundpd i ∧ Half s1 st.jit))) := by
  obtain ⟨gs, hgs, rfl⟩ := monoasm_inv hg
  rw [block_jit] at hr
  cases h : gs (begun s w) with
  | ok a st1 => rw [h] at hr; cases hr
  | panic q st1 =>
    rw [h] at hr; cases hr
    exact all_panicked (knows_of_avoids hL hA) hu (fun i hi e he => ⟨i, hi, he⟩) (fun i hi e he => ⟨i, hi, he⟩) hgs
      clean_jit h

/-- If an expression panics when its turn comes, the call panics, and the statements before it have been
    assembled. -/
theorem C66_raises_partial {is1 is2 : List (Inst ε lam)} {i : Inst ε lam} (hL : Lexical U names lname)
    (hA : ∀ j ∈ is1 ++ i :: is2, Avoids names lname j) (hu : ∀ j ∈ is1 ++ i :: is2, ¬ Unsettled U j)
    (hg : Expand.monoasm U (is1 ++ i :: is2) = .ok g) {s s1 : JitMemory} {w w1 w2 : ω}
    (ha : Assembles U is1 s w s1 w1) (hp : evaluate U i w1 = (none, w2)) :
    ∃ p st, g (start s w) = .panic p st ∧ (Stray s1 st.jit ∨ IsRoundpd i ∧ Half s1 st.jit) := by
  obtain ⟨gs, hgs, rfl⟩ := monoasm_inv hg
  obtain ⟨p, st, e, hl⟩ := all_raises (knows_of_avoids hL hA) hu (fun i hi e he => ⟨i, hi, he⟩)
    (fun i hi e he => ⟨i, hi, he⟩) hgs (st := begun s w) clean_jit ha hp
  rw [block_jit, e]
  exact ⟨p, _, rfl, hl⟩

/-! ### Witnesses -/

/-- Expressions: a literal, `{ n += 1; n }`, or `panic!()`. -/
inductive Expr2 where
  | lit (v : V)
  | next
  | fail
deriving DecidableEq

/-- A user with a counter `n`. -/
def user2 : User Expr2 String Nat where
  value
    | .lit v, _, n => (some v, n)
    | .next, _, n => (some (BitVec.ofNat 64 (n + 1)), n + 1)
    | .fail, _, n => (none, n)
  label _ _ := 0

theorem lexical2 : Lexical user2 (fun _ => []) id where
  value e h h' _ := by cases e <;> rfl
  label _ _ _ _ := rfl

theorem avoids2 (i : Inst Expr2 String) (h : i.labels = []) : Avoids (fun _ => []) id i :=
  ⟨fun _ _ _ h => (List.not_mem_nil h).elim, by simp [h]⟩

/-- An empty code memory. -/
def blank : JitMemory := JitMemory.new 0x1000 fun _ => 0

/-- The code in the first page. -/
def codeOf (s : JitMemory) : List Monoasm.Byte :=
  (List.range (s.pages 0).counter).map fun k => s.mem (0x1000 + k)

/-- Outcome of a call: the panic, if any, the code, and the counter. -/
def outcome (is : List (Inst Expr2 String)) (s : JitMemory) (n : Nat) : Option (Option Panic × List Monoasm.Byte × Nat) :=
  match Expand.monoasm user2 is with
  | .error _ => none
  | .ok g => match g (start s n) with
    | .ok _ st => some (none, codeOf st.jit, st.world)
    | .panic p st => some (some p, codeOf st.jit, st.world)

/-- `addq R({ n += 1; n }), ({ n += 1; n });`: the immediate is evaluated first (`add rdx, 1`).
    `movq [R({ n += 1; n }) + R(6) * 4 + ({ n += 1; n })], R({ n += 1; n });`: the source, the base, the
    displacement (`mov [rdx + rsi * 4 + 3], rcx`). -/
theorem C66_witness :
    outcome [.Add .QWORD (.reg (.expr .next)) (.imm .next)] blank 0 = some (none, [0x48, 0x83, 0xc2, 0x01], 2)
    ∧ outcome [.Movq (.ind ⟨.expr .next, .s1 2 (.reg 6), .expr false .next⟩) (.reg (.expr .next))] blank 0 =
        some (none, [0x48, 0x89, 0x4c, 0xb2, 0x03], 3) := by
  decide +kernel

/-- `testq R({ n += 1; n }), 5;` asks the first value whether it is `rax` and tests the second one. -/
theorem C66_mixed :
    ∃ g st, Expand.monoasm user2 [.Testq (.reg (.expr .next)) (.imm (.lit 5))] = .ok g ∧
      g (start blank 0) = .ok () st ∧ st.world = 2 ∧ codeOf st.jit = [0x48, 0xf7, 0xc2, 5, 0, 0, 0] ∧
      ¬ Assembles user2 [.Testq (.reg (.expr .next)) (.imm (.lit 5))] blank 0 st.jit st.world := by
  refine ⟨_, _, rfl, rfl, rfl, by decide +kernel, fun h => ?_⟩
  cases h with
  | next h1 _ h3 =>
    cases h3
    cases h1

/-- `movq xmm(panic!()), rax;` leaves the byte 66 behind. -/
theorem C66_stray : outcome [.Movq (.xmm (.expr .fail)) (.reg (.reg 0))] blank 0 = some (some .userCode, [0x66], 0) := by
  decide +kernel

/-- If assembling goes on after the panic of `C66_stray`, the next instruction is another one: `addl rax, rcx;`
    has become an addition of 16 bits. -/
theorem C66_stray_harm :
    ∃ g st, Expand.monoasm user2 [.Movq (.xmm (.expr .fail)) (.reg (.reg 0))] = .ok g ∧
      g (start blank 0) = .panic .userCode st ∧
      (outcome [.Add .DWORD (.reg (.reg 0)) (.reg (.reg 1))] blank 0).map (fun o => X86.decode o.2.1) =
        some (some (.alu .add .d (.gpr 0) (.gpr 1), [])) ∧
      (outcome [.Add .DWORD (.reg (.reg 0)) (.reg (.reg 1))] st.jit 0).map (fun o => X86.decode o.2.1) =
        some (some (.alu .add .w (.gpr 0) (.gpr 1), [])) :=
  ⟨_, _, rfl, rfl, by decide +kernel, by decide +kernel⟩

/-- `roundpd xmm0, xmm1, (panic!());` leaves an instruction without its last byte. -/
theorem C66_half :
    outcome [.Roundpd (.no 0) (.xmm (.no 1)) .fail] blank 0 = some (some .userCode, [0x66, 0x0f, 0x3a, 0x09, 0xc1], 0) := by
  decide +kernel

/-- `addb rax, ({ n += 1; n });` with a value out of range evaluates the expression again for the message. -/
theorem C66_message :
    outcome [.Add .BYTE (.reg (.reg 0)) (.imm .next)] blank 200 = some (some .immOutOfRange, [], 202) := by
  decide +kernel

/-- The hypotheses are met by `addq R({ n += 1; n }), 3; movw R(3), ({ n += 1; n }); movb R(panic!()), 1; ret;`,
    which panics after the second statement. -/
example :
    let is1 : List (Inst Expr2 String) := [.Add .QWORD (.reg (.expr .next)) (.imm (.lit 3)),
      .Movw (.reg (.expr (.lit 3))) (.imm .next)]
    let i : Inst Expr2 String := .Movb (.reg (.expr .fail)) (.imm (.lit 1))
    let is2 : List (Inst Expr2 String) := [.Ret]
    Lexical user2 (fun _ => []) id ∧ (∀ j ∈ is1 ++ i :: is2, Avoids (fun _ => []) id j) ∧
    (∀ j ∈ is1 ++ i :: is2, ¬ Unsettled user2 j) ∧ (∃ g, Expand.monoasm user2 (is1 ++ i :: is2) = .ok g) ∧
    (∃ s1, Assembles user2 is1 blank 0 s1 2) ∧ evaluate user2 i 2 = (none, 2) := by
  refine ⟨lexical2, ?_, ?_, ⟨_, rfl⟩, ⟨_, .next rfl rfl (.next rfl rfl .done)⟩, rfl⟩
  · intro j hj
    simp only [List.cons_append, List.nil_append, List.mem_cons, List.not_mem_nil, or_false] at hj
    rcases hj with rfl | rfl | rfl | rfl <;> exact avoids2 _ rfl
  · intro j hj
    simp only [List.cons_append, List.nil_append, List.mem_cons, List.not_mem_nil, or_false] at hj
    rcases hj with rfl | rfl | rfl | rfl <;> exact id

/-- `xchgq R(3), R(expression); testq rax, ({ n += 1; n }); testb R(panic!()), 1;`, with a `panic!()` in a
    register that is evaluated twice. -/
example :
    ∀ i ∈ ([.Xchg .QWORD (.reg (.expr (.lit 3))) (.reg (.expr (.lit 7))), .Testq (.reg (.reg 0)) (.imm .next),
      .Testb (.reg (.expr .fail)) (.imm (.lit 1))] : List (Inst Expr2 String)), ¬ Unsettled user2 i := by
  intro j hj
  simp only [List.mem_cons, List.not_mem_nil, or_false] at hj
  rcases hj with rfl | rfl | rfl
  · exact fun h => h ⟨fun _ => rfl, fun _ => rfl⟩
  · exact fun h => h fun _ => rfl
  · exact fun h => h fun _ => rfl

end Monoasm
