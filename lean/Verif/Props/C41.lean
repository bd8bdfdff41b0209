import Verif.Proofs.Parse4
import Verif.Proofs.Print
/-
  C41: assembly syntax. The grammar (`InstSyn`, Spec/Grammar.lean) says which token sequences are the
  text of which statement; the parser reads exactly these, as that statement.
-/

namespace Monoasm
open Spec

variable {X : RustExpr} {ts rest base : List Tok} {i j : TInst} {is js : List TInst}

/-- One statement: whatever text of `i` stands at the front of the input is read as `i`. -/
theorem C41_roundtrip (hX : Takes X) (h : InstSyn X i ts) : parseInst X (ts ++ rest) = .ok (i, rest) :=
  (parseInst_ok hX).2 ⟨ts, rfl, h⟩

/-- One statement: whatever is accepted is a text of the statement returned. -/
theorem C41_sound (hX : Takes X) (h : parseInst X ts = .ok (i, rest)) : ∃ pre, ts = pre ++ rest ∧ InstSyn X i pre :=
  (parseInst_ok hX).1 h

/-- Sequences of statements: accepted iff in the grammar, and then as these statements. -/
theorem C41_program (hX : Takes X) : parseInsts X ts = .ok is ↔ InstsSyn X is ts := parseInsts_ok hX

/-- The input of the macro: an expression for the code buffer, a comma, the statements. -/
theorem C41_macro (hX : Takes X) : parseStmts X ts = .ok (base, is) ↔
    ∃ rest, X ts = some (base, .punct ',' :: rest) ∧ InstsSyn X is rest := by
  unfold parseStmts
  cases e : (do let base ← parseExpr X; P.punct ','; return base : P (List Tok)) ts with
  | error err =>
    simp only [reduceCtorEq, false_iff]
    rintro ⟨rest, h1, h2⟩
    rw [P.bind_eq] at e
    simp only [parseExpr, h1, P.bind_eq, P.punct, P.pure_eq, if_true] at e
    cases e
  | ok p =>
    obtain ⟨b, r⟩ := p
    simp only [P.bind_ok, P.punct_ok, P.pure_ok] at e
    obtain ⟨b', ts1, h1, u, ts2, rfl, rfl, rfl⟩ := e
    have h1' : X ts = some (b', .punct ',' :: ts2) := by
      unfold parseExpr at h1
      cases h : X ts with
      | none => rw [h] at h1; cases h1
      | some r => rw [h] at h1; cases h1; rfl
    cases e2 : parseInsts X ts2 with
    | error err =>
      simp only [e2, reduceCtorEq, false_iff]
      rintro ⟨rest, h3, h4⟩
      rw [h1'] at h3
      cases h3
      rw [(parseInsts_ok hX).2 h4] at e2
      cases e2
    | ok is' =>
      simp only [e2, Except.ok.injEq, Prod.mk.injEq]
      constructor
      · rintro ⟨rfl, rfl⟩
        exact ⟨_, h1', (parseInsts_ok hX).1 e2⟩
      · rintro ⟨rest, h3, h4⟩
        rw [h1'] at h3
        cases h3
        rw [(parseInsts_ok hX).2 h4] at e2
        cases e2
        exact ⟨rfl, rfl⟩

/-- No text has two readings. -/
theorem C41_unambiguous (hX : Takes X) (h : InstsSyn X is ts) (h' : InstsSyn X js ts) : is = js := by
  have := ((parseInsts_ok hX).2 h).symm.trans ((parseInsts_ok hX).2 h')
  cases this
  rfl

/-- Which statements can be written. -/
theorem C41_expressible : (∃ ts, InstSyn X i ts) ↔ Expressible X i :=
  ⟨fun ⟨_, h⟩ => expressible_of h, fun h => ⟨_, print_syn h⟩⟩

/-- They can be written as the printer does: its text is read as the same statements. -/
theorem C41_print (hX : Takes X) (h : ∀ i ∈ is, Expressible X i) : parseInsts X (printAll is) = .ok is :=
  (C41_program hX).2 (printAll_syn h)

/-- What was read, printed, and read again is the same. -/
theorem C41_normal (hX : Takes X) (h : parseInsts X ts = .ok is) : parseInsts X (printAll is) = .ok is :=
  C41_print hX (expressibles_of ((C41_program hX).1 h))

/-- `l: addq [r8 + R(n)*4 - 16], (x + 1); cmovnel rcx, [rip + l]; jmp l;` -/
example : InstsSyn exExpr
    [.Label "l",
     .Add .QWORD (.ind ⟨.reg 8, .s1 2 (.expr [.ident "n"]), .imm (-16)⟩) (.imm [.ident "x", .punct '+', .int 1 ""]),
     .Cmovcc .DWORD .Ne (.reg 1) (.ind ⟨.reg 16, .none, .label "l"⟩), .Jmp (.rel "l")]
    [.ident "l", .punct ':',
     .ident "addq", .group .bracket [.ident "r8", .punct '+', .ident "R", .group .paren [.ident "n"], .punct '*', .int 4 "",
       .punct '-', .int 16 ""], .punct ',', .group .paren [.ident "x", .punct '+', .int 1 ""], .punct ';',
     .ident "cmovnel", .ident "rcx", .punct ',', .group .bracket [.ident "rip", .punct '+', .ident "l"], .punct ';',
     .ident "jmp", .ident "l", .punct ';'] := by
  refine (C41_program takes_exExpr).1 ?_
  rfl

/-- A label with the name of a register, the least displacement, and a factor 1: `movq [rax - rcx], 5; movb [r9 + R(x) +
    -2147483648], rdx;` -/
example : printAll [.Movq (.ind ⟨.reg 0, .none, .label "rcx"⟩) (.imm [.int 5 ""] none),
      .Movb (.ind ⟨.reg 9, .s1 0 (.expr [.ident "x"]), .imm 0x80000000⟩) (.reg (.reg 2))]
    = [.ident "movq", .group .bracket [.ident "rax", .punct '-', .ident "rcx"], .punct ',', .int 5 "", .punct ';',
       .ident "movb", .group .bracket [.ident "r9", .punct '+', .ident "R", .group .paren [.ident "x"], .punct '+', .punct '-', .int 2147483648 ""],
         .punct ',', .ident "rdx", .punct ';'] := by
  rfl

end Monoasm
