import Verif.Proofs.Bytes
/-
  The item list of a macro statement has one of a few shapes.
-/

set_option linter.unusedSimpArgs false

namespace Monoasm

inductive Shape : Inst V DestLabel → List Item → Prop where
  | label (l) : Shape (.Label l) [.bind l]
  | bytes {i} (bs : List Byte) (imm : Imm) (h : 0 < bs.length + lenOf (immItems imm) ∧ bs.length + lenOf (immItems imm) ≤ 12) :
      Shape i (bs.map .i8 ++ immItems imm)
  | o {i} (pre : List Byte) (k op reg imm) (h : pre.length + lenOf (immItems imm) ≤ 10) :
      Shape i (pre.map .i8 ++ (It.o k op reg ++ immItems imm))
  | enc {i} (pre : List Byte) (op k mm rm imm) (h : pre.length + op.length + lenOf (immItems imm) ≤ 5) :
      Shape i (pre.map .i8 ++ encItems op k mm rm imm)
  | round (op1 op2 op3) : Shape (.Roundpd op1 op2 op3)
      (.i8 0x66 :: encItems [0x0f, 0x3a, 0x09] .none (.reg op1.toReg) op2.toRm .none ++ [.i8 (op3.setWidth 8)])
  | d {i} (op : List Byte) (l) (h : op.length ≤ 2) : Shape i (op.map .i8 ++ [.rel l 4])
  | imm {i} (pre : List Byte) (h : pre = [] ∨ pre = [0x66]) : Shape i (pre.map .i8 ++ [.fail .immOutOfRange])
  | cl {i} : Shape i [.fail .regShouldBeCl]

section
variable {i : Inst V DestLabel}

theorem Shape.enc0 (op k mm rm imm) (h : op.length + lenOf (immItems imm) ≤ 5) :
    Shape i (encItems op k mm rm imm) := .enc [] op k mm rm imm (by simpa using h)
theorem Shape.enc1 (b op k mm rm imm) (h : op.length + lenOf (immItems imm) ≤ 4) :
    Shape i (.i8 b :: encItems op k mm rm imm) := .enc [b] op k mm rm imm (by simp only [List.length_cons, List.length_nil]; omega)
theorem Shape.o0 (k op reg) : Shape i (It.o k op reg) := by
  simpa [immItems] using Shape.o (i := i) [] k op reg .none (by simp [immItems])
theorem Shape.imm0 : Shape i [.fail .immOutOfRange] := .imm [] (.inl rfl)
theorem Shape.fail66 : Shape i [.i8 0x66, .fail .immOutOfRange] := .imm [0x66] (.inr rfl)
theorem Shape.b1 (a) : Shape i [.i8 a] := .bytes [a] .none (by simp [immItems])
theorem Shape.b2 (a b) : Shape i [.i8 a, .i8 b] := .bytes [a, b] .none (by simp [immItems])
theorem Shape.b1q (a) : Shape i [.i64 a] := .bytes [] (.q a) (by simp [immItems, Item.len])
theorem Shape.b1l (b v) : Shape i [.i8 b, .i32 v] := .bytes [b] (.l v) (by simp [immItems, Item.len])
theorem Shape.b2l (a b v) : Shape i [.i8 a, .i8 b, .i32 v] := .bytes [a, b] (.l v) (by simp [immItems, Item.len])
theorem Shape.oi8 (k op reg v) : Shape i (It.o k op reg ++ [.i8 v]) := .o [] k op reg (.b v) (by simp [immItems, Item.len])
theorem Shape.oi16 (a k op reg v) : Shape i (.i8 a :: (It.o k op reg ++ [.i16 v])) :=
  .o [a] k op reg (.w v) (by simp [immItems, Item.len])
theorem Shape.oi16' (a k op reg v) : Shape i ((.i8 a :: It.o k op reg) ++ [.i16 v]) :=
  .o [a] k op reg (.w v) (by simp [immItems, Item.len])
theorem Shape.oi32 (k op reg v) : Shape i (It.o k op reg ++ [.i32 v]) := .o [] k op reg (.l v) (by simp [immItems, Item.len])
theorem Shape.oi64 (k op reg v) : Shape i (It.o k op reg ++ [.i64 v]) := .o [] k op reg (.q v) (by simp [immItems, Item.len])
theorem Shape.d1 (b l) : Shape i [.i8 b, .rel l 4] := .d [b] l (by simp)

end

macro "shape" : tactic => `(tactic| first
  | exact Shape.enc0 _ _ _ _ _ (by simp [immItems, Item.len])
  | exact Shape.enc1 _ _ _ _ _ _ (by simp [immItems, Item.len]) | exact Shape.o0 .. | exact Shape.imm0 | exact Shape.fail66
  | exact Shape.b1 .. | exact Shape.b2 .. | exact Shape.b1q .. | exact Shape.b1l .. | exact Shape.b2l ..
  | exact Shape.oi8 .. | exact Shape.oi16 .. | exact Shape.oi16' .. | exact Shape.oi32 .. | exact Shape.oi64 ..
  | exact Shape.d1 .. | exact Shape.d _ _ (by simp) | exact Shape.cl | exact Shape.label _ | exact Shape.round ..)

theorem shape_binary {i size op dg op1 op2 its} (h : It.binary_op size op dg op1 op2 = .ok its) :
    Shape i its := by
  cases size <;> simp only [It.binary_op] at h
  · cases op1 <;> cases op2 <;> simp only [It.binary_opq, Except.ok.injEq, reduceCtorEq] at h <;>
      subst h <;> (repeat' split) <;> shape
  · cases op1 <;> cases op2 <;> simp only [It.binary_opl, Except.ok.injEq, reduceCtorEq] at h <;>
      subst h <;> (repeat' split) <;> shape
  · cases op1 <;> cases op2 <;> simp only [It.binary_opw, Except.ok.injEq, reduceCtorEq] at h <;>
      subst h <;> (repeat' split) <;> shape
  · cases op1 <;> cases op2 <;> simp only [It.binary_opb, Except.ok.injEq, reduceCtorEq] at h <;>
      subst h <;> (repeat' split)
    all_goals first
      | shape
      | (simp only [It.digit_imm_byte]; split
         · exact Shape.bytes [_] (.b _) (by simp [immItems, Item.len])
         · split <;> shape)

theorem shape_shift {i size dg op1 op2 its} (h : It.shift_op size dg op1 op2 = .ok its) :
    Shape i its := by
  cases size <;> cases op2 <;> simp only [It.shift_op, Except.ok.injEq, reduceCtorEq] at h <;>
    subst h <;> (repeat' split) <;> shape

theorem shape_count {i size op op1 op2 its} (h : It.count_op size op op1 op2 = .ok its) :
    Shape i its := by
  cases size <;> simp only [It.count_op, Except.ok.injEq, reduceCtorEq] at h <;>
    subst h <;> shape

theorem items_shape {i : Inst V DestLabel} {its} (h : items i = .ok its) : Shape i its := by
  cases i
  case F64 bits =>
    simp only [items, Except.ok.injEq] at h; subst h
    simpa [immItems] using Shape.bytes (i := .F64 bits) (bytes64 bits) .none (by simp [immItems, bytes64])
  case Movq op1 op2 =>
    simp only [items] at h
    cases op1 <;> cases op2 <;> simp only [It.movq, Except.ok.injEq, reduceCtorEq] at h <;>
      (try (first | (subst h; first | shape | (split <;> shape)) | (split at h <;> simp at h <;> subst h <;> (repeat' split) <;> shape)))
    all_goals (rename_i sz; cases sz <;> simp only [It.movq, Except.ok.injEq, reduceCtorEq] at h; subst h; split <;> shape)
  case Movl op1 op2 =>
    simp only [items] at h
    cases op1 <;> cases op2 <;> simp only [It.movl, Except.ok.injEq, reduceCtorEq] at h <;>
      subst h <;> (repeat' split) <;> shape
  case Movw op1 op2 =>
    simp only [items] at h
    cases op1 <;> cases op2 <;> simp only [It.movw, Except.ok.injEq, reduceCtorEq] at h <;>
      subst h <;> (repeat' split) <;> shape
  case Movb op1 op2 =>
    simp only [items] at h
    cases op1 <;> cases op2 <;> simp only [It.movb, Except.ok.injEq, reduceCtorEq] at h <;>
      subst h <;> (repeat' split) <;> shape
  case Pushq op | Popq op =>
    simp only [items, Except.ok.injEq] at h; subst h
    cases op <;> simp only [It.push_pop] <;> shape
  case Setcc | Movsxl | Movzxw | Movsxw | Movzxb | Movsxb | Negq | Idiv | Idivl | Div | Divl
      | Cvtsi2sdq | Cvttsd2siq | Andpd | Xorpd | Sqrtpd | Sqrtsd | UComIsd | Xorps | Addsd | Subsd
      | Mulsd | Divsd | Minsd | Maxsd | Cqo | Cdq | Int3 | Ret | Leave | Syscall | Jcc | I64 | Label =>
    simp only [items, Except.ok.injEq] at h; subst h; shape
  case Roundpd => simp only [items, Except.ok.injEq] at h; subst h; exact Shape.round ..
  case Add | Sub | Adc | Sbb | And | Or | Xor | Cmp => exact shape_binary h
  case Shl | Shr | Sal | Sar | Rol | Ror => exact shape_shift h
  case Lzcnt | Tzcnt | Popcnt => exact shape_count h
  case Xchg size op1 op2 =>
    cases size <;> simp only [items, reduceCtorEq] at h
    cases op1 <;> cases op2 <;> simp only [Except.ok.injEq, reduceCtorEq] at h <;>
      subst h <;> (repeat' split) <;> shape
  case Testq op1 op2 =>
    cases op1 <;> cases op2 <;> simp only [items, Except.ok.injEq] at h <;>
      subst h <;> (repeat' split) <;> shape
  case Testb op1 op2 =>
    cases op1 <;> cases op2 <;> simp only [items, Except.ok.injEq] at h <;>
      subst h <;> (repeat' split) <;> shape
  case Cmovcc size _ _ _ =>
    cases size <;> simp only [items, Except.ok.injEq, reduceCtorEq] at h <;> subst h <;> shape
  case Imul op1 op2 =>
    cases op1 <;> cases op2 <;> simp only [items, Except.ok.injEq, reduceCtorEq] at h <;>
      subst h <;> shape
  case Movsd op1 op2 =>
    cases op1 <;> cases op2 <;> simp only [items, Except.ok.injEq, reduceCtorEq] at h <;>
      subst h <;> shape
  case Lea op1 op2 =>
    cases op1 <;> cases op2 <;> simp only [items, Except.ok.injEq, reduceCtorEq] at h <;>
      subst h <;> shape
  case Call dest =>
    cases dest <;> simp only [items, Except.ok.injEq, reduceCtorEq] at h <;>
      subst h <;> (repeat' split) <;> shape
  case Jmp dest =>
    cases dest <;> simp only [items, Except.ok.injEq, reduceCtorEq] at h <;>
      subst h <;> shape

end Monoasm
