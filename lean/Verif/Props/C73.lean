import Verif.Proofs.RustUser
import Verif.Props.C41
import Verif.Props.C71
/-
  C73: macro calls with Rust expressions as operands, from the tokens to the effect. The parser of
  expressions that the macro gets from `syn` is here the reader of Rust expressions (Spec/RustRead.lean),
  and operands have their Rust types and values.
-/

namespace Monoasm
open Spec Rust

variable {ts rest pre : List Tok} {e b : Rust.Expr} {Γ : Ctx} {ρ : String → Int} {chk : Bool} {labels : String → Nat}
  {is : List TInst}

/-- The reader finds the expression at the front of the tokens; it is a parser of the kind assumed in C41. -/
theorem C73_reader : (readExpr ts = some (pre, rest) ↔ ∃ e, Rust.Reads (.expr 0) ts e rest ∧ pre = e.text) ∧ Takes readExpr := by
  refine ⟨readExpr_iff, ?_⟩
  intro ts pre rest h
  obtain ⟨e, h', rfl⟩ := readExpr_iff.1 h
  exact (sound h').1

/-- The texts of proper expressions are expressions for the macro, and no others. -/
theorem C73_expressions : IsExpr readExpr ts ↔ ∃ e : Rust.Expr, e.Proper ∧ ts = e.text := by
  unfold IsExpr
  rw [readExpr_iff]
  constructor
  · rintro ⟨e, h, rfl⟩
    exact ⟨e, (sound h).2.1, rfl⟩
  · rintro ⟨e, h, rfl⟩
    exact ⟨e, Is.of_proper h, rfl⟩

/-- A macro call: the expression for the code buffer, a comma, and statements as the printer writes them. -/
theorem C73_macro (hb : b.Proper) (h : ∀ i ∈ is, Expressible readExpr i) :
    parseStmts readExpr (b.text ++ .punct ',' :: printAll is) = .ok (b.text, is) := by
  have hT : Takes readExpr := (C73_reader (ts := []) (pre := []) (rest := [])).2
  rw [C41_macro hT]
  refine ⟨printAll is, readExpr_iff.2 ⟨b, ?_, rfl⟩, printAll_syn h⟩
  have hs : ∀ p, Stops p (.punct ',' :: printAll is) := fun p => ⟨.inl rfl, fun o ts' ho => by cases ho⟩
  exact ((complete b hb _).2.2 rfl (hs _) 0 (Nat.zero_le _) _ _ (.stop (hs 0)))

/-- The marks on operands do not change a statement. -/
theorem C73_placed {ε lam : Type} (i : Inst ε lam) : i.placed.map Prod.snd id = i ∧ i.placed.labels = i.labels :=
  ⟨map_placed i, labels_placed i⟩

/-- Each expression stands at the place that its operand asks for. -/
theorem C73_places (i : TInst) : i.placed.exprs = (writtens i).flatMap Written.places := by
  have hr : ∀ r : Register (List Tok), r.placed.exprs = Written.register r := by rintro (_ | _) <;> rfl
  have hx : ∀ r : XmmReg (List Tok), r.placed.exprs = Written.xmmRegister r := by rintro (_ | _) <;> rfl
  have ha : ∀ a : IndAddr (List Tok) String, a.placed.exprs = Written.address a := by
    rintro ⟨b, s, d⟩
    simp only [IndAddr.placed, IndAddr.exprs, Written.address, hr]
    congr 1
    · congr 1
      cases s
      · rfl
      · exact hr _
    · rcases d with _ | ⟨_ | _, _⟩ | _ <;> rfl
  have h1 : ∀ a, a.placed.exprs = (Written.rm a).places := by rintro (_ | _) <;> first | rfl | exact hr _ | exact hx _ | exact ha _
  have h2 : ∀ a, a.placed.exprs = (Written.rmi a).places := by rintro (_ | _ | _) <;> first | rfl | exact hr _ | exact hx _ | exact ha _
  have h3 : ∀ a, a.placed.exprs = (Written.ri a).places := by rintro (_ | _) <;> first | rfl | exact hr _ | exact hx _ | exact ha _
  have h4 : ∀ a, a.placed.exprs = (Written.xm a).places := by rintro (_ | _) <;> first | rfl | exact hr _ | exact hx _ | exact ha _
  have h5 : ∀ a, a.placed.exprs = (Written.mov a).places := by rintro (_ | _ | _ | _) <;> first | rfl | exact hr _ | exact hx _ | exact ha _
  have h6 : ∀ a, a.placed.exprs = (Written.dest a).places := by rintro (_ | _ | _ | _) <;> first | rfl | exact hr _ | exact hx _ | exact ha _
  have h7 : ∀ a, a.placed.exprs = (Written.reg a).places := fun a => hr a
  have h8 : ∀ a, a.placed.exprs = (Written.xmm a).places := fun a => hx a
  cases i <;> simp only [Inst.placed, Inst.exprs, writtens, List.flatMap_cons, List.flatMap_nil, List.append_nil, List.append_assoc, h1, h2, h3, h4, h5, h6, h7, h8] <;> rfl

/-- The expansion of a macro call whose operands and labels use none of the names `jit`, `imm`, `rm_op`,
    `op1`, `op2` assembles its statements one after the other, with the values that Rust gives to the
    operands at their places - also when an instruction panics -, provided that the evaluation of the
    operands does not panic; it is rejected by the macro if and only if one of the statements has operands
    of an unsupported form. -/
theorem C73_effect (ha : ∀ i ∈ is, Avoids Rust.names id i.placed) {v : Place × List Tok → Int}
    (hv : ∀ i ∈ is, ∀ e ∈ i.placed.exprs, valueAt chk Γ ρ e.1 e.2 = some (v e)) :
    let as := is.map fun i => i.placed.map (fun e => toWord e.1 (v e)) labels
    ((∀ i ∈ as, Accepted i) → ∃ g, Expand.monoasm (user chk Γ ρ labels) (is.map Inst.placed) = .ok g
        ∧ ∀ s w, code (g (start s w)) = runOps (as.map .inst) s)
    ∧ ((∃ i ∈ as, ¬ Accepted i) → ∃ e, Expand.monoasm (user chk Γ ρ labels) (is.map Inst.placed) = .error e) := by
  intro as
  have H := C47_values_partial (is := is.map Inst.placed) (lexical_user (chk := chk) (Γ := Γ) (ρ := ρ) (labels := labels))
    (fun i hi => by
      obtain ⟨j, hj, rfl⟩ := List.mem_map.1 hi
      exact ha j hj)
    (ρ := fun e => toWord e.1 (v e)) (fun i hi e he w => by
      obtain ⟨j, hj, rfl⟩ := List.mem_map.1 hi
      have := hv j hj e he
      show Option.map (toWord e.1) (valueAt chk Γ ρ e.1 e.2) = _
      rw [this]; rfl)
  have has : (is.map Inst.placed).map (Inst.map (fun e => toWord e.1 (v e)) fun l => (user chk Γ ρ labels).label l userScope) = as := by
    rw [List.map_map]; rfl
  rw [has] at H
  refine ⟨fun hok => ?_, fun hno => ?_⟩
  · obtain ⟨m, hm, e⟩ := compileAll_runs _ hok
    rw [hm] at H
    obtain ⟨g, hg, hc⟩ := H
    exact ⟨g, hg, fun s w => (hc s w).trans (e s)⟩
  · obtain ⟨e, he⟩ := compileAll_rejects _ hno
    rw [he] at H
    exact ⟨e, H⟩

/-- The arguments of the functions of the library are these values: -/
theorem C73_arguments (w : Int) :
    (Register.expr (toWord .reg w)).toReg = Reg.from (BitVec.ofInt 64 w) ∧
    (XmmReg.expr (toWord .reg w)).toReg = Reg.from (BitVec.ofInt 64 w) ∧
    (MDisp.expr false (toWord .disp w)).toDisp = Disp.from_disp (BitVec.ofInt 32 w) ∧
    (MDisp.expr true (toWord .minus w)).toDisp = Disp.from_disp (BitVec.ofInt 32 w) ∧
    toWord .imm w = BitVec.ofInt 64 w ∧ toWord .call w = BitVec.ofInt 64 w ∧
    (toWord .mode w).setWidth 8 = BitVec.ofInt 8 w := by
  refine ⟨rfl, rfl, ?_, ?_, rfl, rfl, ?_⟩
  · simp only [MDisp.toDisp, toWord, setWidth32_ofInt, reduceCtorEq, if_false]
  · simp only [MDisp.toDisp, toWord, setWidth32_ofInt, if_true, ← BitVec.ofInt_neg, Int.neg_neg]
  · simp only [toWord, setWidth8_ofInt, reduceCtorEq, if_false]

/-- Immediates and register numbers are the values of the operands; at the other places the conversion may
    apply to a part of the operand (C71). -/
theorem C73_values (h : Is ts e) :
    valueAt chk Γ ρ .imm ts = (Rust.eval chk Γ ρ e (typeFor Γ i64 e)).map i64.wrap ∧
    valueAt chk Γ ρ .reg ts = Rust.eval chk Γ ρ e ⟨64, false⟩ ∧
    valueAt chk Γ ρ .mode ts = Rust.eval chk Γ ρ e ⟨8, false⟩ ∧
    valueAt chk Γ ρ .disp ts = Rust.eval chk Γ ρ (e.castLast "i32") i32 ∧
    valueAt chk Γ ρ .call ts = Rust.eval chk Γ ρ (e.castLast "i64") i64 ∧
    valueAt chk Γ ρ .minus ts = (Rust.eval chk Γ ρ (e.castLast "i32") i32).bind fun v => i32.result chk (-v) := by
  have hp := C71_partial h
  refine ⟨?_, ?_, ?_, ?_, ?_, ?_⟩ <;> simp only [valueAt, Place.tokens]
  · rw [whole_iff.2 (C71_immediate h)]
    simp [Rust.eval, Rust.ty, typeFor]
    cases Rust.eval chk Γ ρ e (typeFor Γ i64 e) <;> rfl
  · rw [whole_iff.2 h]; rfl
  · rw [whole_iff.2 h]; rfl
  · rw [whole_iff.2 hp.1]; rfl
  · rw [whole_iff.2 hp.2.2.1]; rfl
  · rw [whole_iff.2 hp.2.1]; simp [Rust.eval, Rust.ty]

/-- `*jit, addq R(n), (2 * m + 1); movl [rsp - (k << 3)], R(n + 8); call (m);` -/
def exCall : List Tok :=
  [.punct '*', .ident "jit", .punct ',',
   .ident "addq", .ident "R", .group .paren [.ident "n"], .punct ',',
     .group .paren [.int 2 "", .punct '*', .ident "m", .punct '+', .int 1 ""], .punct ';',
   .ident "movl", .group .bracket [.ident "rsp", .punct '-', .group .paren [.ident "k", .punct '<', .punct '<', .int 3 ""]],
     .punct ',', .ident "R", .group .paren [.ident "n", .punct '+', .int 8 ""], .punct ';',
   .ident "call", .group .paren [.ident "m"], .punct ';']

/-- Its statements. -/
def exStmts : List TInst :=
  [.Add .QWORD (.reg (.expr [.ident "n"])) (.imm [.int 2 "", .punct '*', .ident "m", .punct '+', .int 1 ""]),
   .Movl (.ind ⟨.reg 4, .none, .expr true [.ident "k", .punct '<', .punct '<', .int 3 ""]⟩)
     (.reg (.expr [.ident "n", .punct '+', .int 8 ""])),
   .Call (.disp [.ident "m"])]

/-- It is read as these, its operands have the types that are asked for, and with `n: u64 = 3`,
    `m: i64 = -20`, `k: i32 = 5` they have the values 3, -39, -40, 11, -20: `addq rbx, -39; movl [rsp - 40], r11;
    call -20`. -/
example :
    let Γ : Ctx := fun x => if x = "n" then some (.int ⟨64, false⟩) else if x = "m" then some (.int i64) else some (.int i32)
    let ρ : String → Int := fun x => if x = "n" then 3 else if x = "m" then -20 else 5
    parseStmts readExpr exCall = .ok ([.punct '*', .ident "jit"], exStmts) ∧
    (∀ i ∈ exStmts, Avoids Rust.names id i.placed) ∧
    (∀ i ∈ exStmts, ∀ e ∈ i.placed.exprs, ∃ x, Is (e.1.tokens e.2) x ∧ HasTy Γ x (.int (Rust.ty e.1))) ∧
    exStmts.flatMap (fun i => i.placed.exprs.map fun e => (e.1, valueAt true Γ ρ e.1 e.2))
      = [(.reg, some 3), (.imm, some (-39)), (.minus, some (-40)), (.reg, some 11), (.call, some (-20))] := by
  refine ⟨rfl, by decide +kernel, ?_, by decide +kernel⟩
  intro i hi e he
  have h : e ∈ exStmts.flatMap fun i => i.placed.exprs := List.mem_flatMap.2 ⟨i, hi, he⟩
  simp only [exStmts, List.flatMap_cons, List.flatMap_nil, Inst.placed, Inst.exprs, RmOperand.placed, RmOperand.exprs, Register.placed,
    Register.exprs, RmiOperand.placed, RmiOperand.exprs, IndAddr.placed, IndAddr.exprs, MScale.placed, MScale.exprs, MDisp.placed,
    MDisp.exprs, Dest.placed, Dest.exprs, List.nil_append, List.append_nil, List.cons_append, List.mem_cons, List.not_mem_nil, or_false] at h
  rcases h with rfl | rfl | rfl | rfl | rfl
  · exact ⟨_, whole_iff.1 rfl, by simp [HasTy, Rust.ty]⟩
  · exact ⟨_, whole_iff.1 rfl, by simp [HasTy, Rust.ty, typeFor, forced, intTy, i64, IntTy.max]⟩
  · exact ⟨_, whole_iff.1 rfl, by simp [HasTy, Rust.ty, typeFor, forced, intTy, i32, IntTy.max]⟩
  · exact ⟨_, whole_iff.1 rfl, by simp [HasTy, Rust.ty, IntTy.max]⟩
  · exact ⟨_, whole_iff.1 rfl, by simp [HasTy, Rust.ty, typeFor, forced, intTy, i64]⟩

/-- The places of the operands of `roundpd xmm(a), [R(b) + R(c)*4 + (d)], (e); shlq rax, (f); movq xmm(g), [rbx - (h)];` -/
example : ([.Roundpd (.expr "a") (.ind ⟨.expr "b", .s1 2 (.expr "c"), .expr false "d"⟩) "e", .Shl .QWORD (.reg (.reg 0)) (.imm "f"),
      .Movq (.xmm (.expr "g")) (.ind ⟨.reg 3, .none, .expr true "h"⟩), .Movsd (.xmm (.expr "i")) (.xmm (.expr "j")),
      .Movq (.reg (.reg 0)) (.imm "k" none)] : List (Inst String String)).flatMap (fun i => i.placed.exprs)
    = [(.reg, "a"), (.reg, "b"), (.reg, "c"), (.disp, "d"), (.mode, "e"), (.imm, "f"), (.reg, "g"), (.minus, "h"), (.reg, "i"), (.reg, "j"),
       (.imm, "k")] := rfl

end Monoasm
