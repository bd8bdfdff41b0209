import Verif.Model.Inst
/-
  Model of the parser of the macro: `monoasm_macro/src/parse.rs` and `Parse for ...` in
  `monoasm_macro/src/inst.rs`.

  The parser works on token trees. What the `syn` crate does is modelled as far as this parser uses
  it:
  * `peek`/`parse` of identifiers, punctuation, groups and literals look at the first token tree
    (keywords and `_` are not identifiers, they are `Tok.other`);
  * an integer or float literal may be preceded by `-` (`syn::Lit::parse`), also for `peek`;
  * tokens left over in a group opened by `parenthesized!`/`bracketed!` make the parse fail;
  * parsing a Rust expression (`syn::Expr`) is a parameter, `RustExpr`.
  Groups without delimiters (made by `macro_rules!` fragments) are not modelled.
-/

namespace Monoasm

inductive Delim where
  | paren | bracket | brace
deriving DecidableEq, Repr

/-- Token trees (`proc_macro2::TokenTree`). -/
inductive Tok where
  | ident (s : String)
  | punct (c : Char)
  /-- integer literal: value and type suffix -/
  | int (n : Nat) (suffix : String)
  /-- float literal: bits of the `f64` nearest to it -/
  | float (bits : BitVec 64)
  | group (d : Delim) (ts : List Tok)
  /-- keywords, other literals, lifetimes -/
  | other (s : String)
deriving Repr

/-- The parser of Rust expressions, `syn::Expr::parse`: the tokens of the expression and the rest. -/
abbrev RustExpr := List Tok → Option (List Tok × List Tok)

inductive ParseError where
  /-- `syn::Error`: reported as a compilation error -/
  | syntaxError
  /-- `unreachable!("invalid scale number.")`, parse.rs:293: panic of the macro -/
  | invalidScale
deriving DecidableEq, Repr

/-- `fn(ParseStream) -> Result<α, Error>`. -/
def P (α : Type) : Type := List Tok → Except ParseError (α × List Tok)

instance : Monad P where
  pure a := fun ts => .ok (a, ts)
  bind m f := fun ts => match m ts with
    | .ok (a, ts') => f a ts'
    | .error e => .error e

namespace P
/-- `Err(input.error(..))` -/
def err {α} : P α := fun _ => .error .syntaxError
/-- `unreachable!` -/
def panic {α} (e : ParseError) : P α := fun _ => .error e

/-- `input.parse::<Ident>()` -/
def ident : P String := fun
  | .ident s :: ts => .ok (s, ts)
  | _ => .error .syntaxError
/-- `input.parse::<Token![c]>()` for a one-character token -/
def punct (c : Char) : P Unit := fun
  | .punct d :: ts => if d = c then .ok ((), ts) else .error .syntaxError
  | _ => .error .syntaxError
/-- `input.peek(Ident)` -/
def peekIdent : P Bool := fun ts => .ok (match ts with | .ident _ :: _ => true | _ => false, ts)
/-- `input.peek(Token![c])` -/
def peekPunct (c : Char) : P Bool := fun ts =>
  .ok (match ts with | .punct d :: _ => d = c | _ => false, ts)
/-- `input.peek(token::Paren)`, `input.peek(token::Bracket)` -/
def peekGroup (d : Delim) : P Bool := fun ts =>
  .ok (match ts with | .group d' _ :: _ => d' = d | _ => false, ts)
/-- `input.peek(LitInt)`: the literal may have a sign (`syn::Lit::parse`). -/
def peekInt : P Bool := fun ts => .ok (match ts with
  | .int _ _ :: _ => true
  | .punct '-' :: .int _ _ :: _ => true
  | _ => false, ts)
/-- `input.peek(LitFloat)` -/
def peekFloat : P Bool := fun ts => .ok (match ts with
  | .float _ :: _ => true
  | .punct '-' :: .float _ :: _ => true
  | _ => false, ts)
/-- `input.parse::<LitInt>()`: value and suffix -/
def litInt : P (Int × String) := fun
  | .int n suf :: ts => .ok ((n, suf), ts)
  | .punct '-' :: .int n suf :: ts => .ok ((-(n : Int), suf), ts)
  | _ => .error .syntaxError
/-- `input.parse::<LitFloat>()?.base10_parse::<f64>()` -/
def litFloat : P (BitVec 64) := fun
  | .float b :: ts => .ok (b, ts)
  | .punct '-' :: .float b :: ts => .ok (b ^^^ 0x8000000000000000, ts)
  | _ => .error .syntaxError
/-- `input.parse::<Group>()`, after `peek` of the delimiter: the tokens inside -/
def group (d : Delim) : P (List Tok) := fun
  | .group d' inner :: ts => if d' = d then .ok (inner, ts) else .error .syntaxError
  | _ => .error .syntaxError
/-- `parenthesized!`/`bracketed!` followed by parsing the contents with `p` to their end -/
def within {α} (d : Delim) (p : P α) : P α := do
  let inner ← group d
  match p inner with
  | .ok (a, []) => pure a
  | .ok (_, _ :: _) => err
  | .error e => panic e

/-- `lit.base10_parse::<T>()` for an integer type `T` with the range `lo..=hi` -/
def base10 (lo hi : Int) (n : Int) : P Int := if lo ≤ n ∧ n ≤ hi then pure n else err
end P

/-- `is_single`, parse.rs:427-429: the token after the next one is `,` or `;` -/
def isSingle : P Bool := fun ts => .ok (match ts with
  | _ :: .punct c :: _ => c = ',' ∨ c = ';'
  | _ => false, ts)

/-- Tokens of an integer literal, as pasted into the expansion (`imm.to_token_stream()`). -/
def intTokens (n : Int) (suf : String) : List Tok :=
  if n < 0 then [.punct '-', .int n.natAbs suf] else [.int n.natAbs suf]

/-- `make_ascii_lowercase` -/
def lowercase (s : String) : String := String.ofList (s.toList.map Char.toLower)

/-- `Reg::from_str`, parse.rs:66-91, with the number of the register (`Reg as u8`, parse.rs:18-36) -/
def regFromStr (s : String) : Option (BitVec 8) :=
  [("rax", 0#8), ("rcx", 1), ("cl", 1), ("rdx", 2), ("rbx", 3), ("rsp", 4), ("rbp", 5), ("rsi", 6), ("rdi", 7),
   ("r8", 8), ("r9", 9), ("r10", 10), ("r11", 11), ("r12", 12), ("r13", 13), ("r14", 14), ("r15", 15), ("rip", 16)].lookup
   (lowercase s)

section
variable (X : RustExpr)

/-- `content.parse::<Expr>()`, tokens of the expression -/
def parseExpr : P (List Tok) := fun ts => match X ts with
  | some r => .ok r
  | none => .error .syntaxError

/-- `Register::check_register`, parse.rs:152-166 -/
def checkRegister (ident : String) : P (Option (Register (List Tok))) :=
  if ident = "R" then do
    let e ← P.within .paren (parseExpr X)
    return some (.expr e)
  else
    match regFromStr ident with
    | some n => return some (.reg n)
    | none => return none

/-- `Register::parse_register`, parse.rs:168-180 -/
def parseRegister (ident : String) : P (Register (List Tok)) :=
  if ident = "R" then do
    let e ← P.within .paren (parseExpr X)
    return .expr e
  else
    match regFromStr ident with
    | some n => return .reg n
    | none => P.err

/-- `Parse for Register`, parse.rs:126-130 -/
def register : P (Register (List Tok)) := do
  let ident ← P.ident
  parseRegister X ident

/-- Value of a string of decimal digits. -/
def digitsValue (cs : List Char) : Nat := cs.foldl (fun n c => 10 * n + (c.toNat - '0'.toNat)) 0

/-- `str::parse::<u8>()` on the rest of an identifier (which contains no sign) -/
def parseU8 (s : List Char) : Option Nat :=
  if s ≠ [] ∧ s.all (fun c => '0' ≤ c ∧ c ≤ '9') ∧ digitsValue s ≤ 255 then some (digitsValue s) else none

/-- `parse_xmm`, parse.rs:191-212 and (a copy) inst.rs:730-751, called when the identifier starts
    with `xmm` -/
def parseXmm (ident : String) : P (XmmReg (List Tok)) :=
  if ident = "xmm" then do
    if ← P.peekGroup .paren then
      let gr ← P.group .paren
      return .expr gr
    else P.err
  else
    match parseU8 (ident.toList.drop 3) with
    | some no => if 15 < no then P.err else return .no (BitVec.ofNat 8 no)
    | none => P.err

/-- `ident.starts_with("xmm")` -/
def startsWith (s pre : String) : Bool := pre.toList.isPrefixOf s.toList

/-- `Parse for Xmm`, parse.rs:214-227 -/
def xmm : P (XmmReg (List Tok)) := do
  if ← P.peekIdent then
    let reg ← P.ident
    if startsWith reg "xmm" then parseXmm reg else P.err
  else P.err

/-- `Parse for Disp`, parse.rs:480-500 -/
def parseDisp : P (MDisp (List Tok) String) := do
  if ← P.peekGroup .paren then
    let e ← P.within .paren (parseExpr X)
    return .expr false e
  else if ← P.peekInt then
    let (n, _) ← P.litInt
    let n ← P.base10 (-2147483648) 2147483647 n
    return .imm (BitVec.ofInt 32 n)
  else if ← P.peekIdent then
    let l ← P.ident
    return .label l
  else P.err

/-- `Disp::neg`, parse.rs:443-451. (Negating `i32::MIN` panics in a macro built with overflow checks
    and wraps otherwise; the model wraps.) -/
def MDisp.neg {ε lam : Type} : MDisp ε lam → MDisp ε lam
  | .imm d => .imm (-d)
  | .expr b e => .expr (!b) e
  | .label l => .label l

/-- scale factor, parse.rs:284-295 -/
def parseScale : P (BitVec 8) := do
  if !(← P.peekPunct '*') then return 0
  else
    P.punct '*'
    -- `base10_parse::<u8>` fails if there is a sign
    if ← P.peekPunct '-' then P.err
    let (n, _) ← P.litInt
    let n ← P.base10 0 255 n
    if n = 1 then return 0
    else if n = 2 then return 1
    else if n = 4 then return 2
    else if n = 8 then return 3
    else P.panic .invalidScale

/-- optional displacement after an index register, parse.rs:296-310 -/
def parseTail : P (MDisp (List Tok) String) := do
  if ← P.peekPunct '-' then
    P.punct '-'
    let d ← parseDisp X
    return d.neg
  else if ← P.peekPunct '+' then
    P.punct '+'
    parseDisp X
  else return .imm 0

/-- inside of the brackets, parse.rs:265-336 -/
def indAddrBody : P (IndAddr (List Tok) String) := do
  let base ← register X
  if ← P.peekPunct '-' then
    P.punct '-'
    let d ← parseDisp X
    return { base, scale := .none, disp := d.neg }
  else if ← P.peekPunct '+' then
    P.punct '+'
    if ← P.peekIdent then
      let ident ← P.ident
      match ← checkRegister X ident with
      | some reg =>
        let scale ← parseScale
        let disp ← parseTail X
        return { base, scale := .s1 scale reg, disp }
      | none => return { base, scale := .none, disp := .label ident }
    else
      let disp ← parseDisp X
      return { base, scale := .none, disp }
  else return { base, scale := .none, disp := .imm 0 }

/-- `Parse for IndAddr`, parse.rs:261-338 -/
def indAddr : P (IndAddr (List Tok) String) := P.within .bracket (indAddrBody X)

/-- `Parse for Dest`, parse.rs:381-401 -/
def dest : P (Dest (List Tok) String) := do
  if (← P.peekIdent) && (← isSingle) then
    let d ← P.ident
    match regFromStr d with
    | some n => return .reg n
    | none => return .rel d
  else if ← P.peekGroup .paren then
    let gr ← P.group .paren
    return .disp gr
  else if ← P.peekGroup .bracket then
    let a ← indAddr X
    return .ind a
  else P.err

/-- `Parse for Immediate`, parse.rs:411-425, and `Parse for ImmOperand`, inst.rs:689-703 (the same
    code) -/
def immediate : P (List Tok) := do
  if (← P.peekInt) && (← isSingle) then
    let (n, suf) ← P.litInt
    return intTokens n suf
  else if ← P.peekGroup .paren then P.group .paren
  else P.err

/-- `Parse for RmOperand`, inst.rs:518-531 -/
def rmOperand : P (RmOperand (List Tok) String) := do
  if ← P.peekIdent then
    let r ← register X
    return .reg r
  else if ← P.peekGroup .bracket then
    let a ← indAddr X
    return .ind a
  else P.err

/-- `Parse for RmiOperand`, inst.rs:570-592 -/
def rmiOperand : P (RmiOperand (List Tok) String) := do
  if ← P.peekIdent then
    let ident ← P.ident
    let r ← parseRegister X ident
    return .reg r
  else if (← P.peekInt) && (← isSingle) then
    let (n, suf) ← P.litInt
    return .imm (intTokens n suf)
  else if ← P.peekGroup .bracket then
    let a ← indAddr X
    return .ind a
  else if ← P.peekGroup .paren then
    let gr ← P.group .paren
    return .imm gr
  else P.err

/-- `Parse for RiOperand`, inst.rs:632-649 -/
def riOperand : P (RiOperand (List Tok)) := do
  if ← P.peekIdent then
    let r ← register X
    return .reg r
  else if (← P.peekInt) && (← isSingle) then
    let (n, suf) ← P.litInt
    return .imm (intTokens n suf)
  else if ← P.peekGroup .paren then
    let gr ← P.group .paren
    return .imm gr
  else P.err

/-- `Parse for XmOperand`, inst.rs:753-768 -/
def xmOperand : P (XmOperand (List Tok) String) := do
  if ← P.peekIdent then
    let reg ← P.ident
    if startsWith reg "xmm" then
      let x ← parseXmm reg
      return .xmm x
    else P.err
  else if ← P.peekGroup .bracket then
    let a ← indAddr X
    return .ind a
  else P.err

/-- `Parse for MovOperand`, inst.rs:802-829 -/
def movOperand : P (MovOperand (List Tok) String) := do
  if ← P.peekIdent then
    let ident ← P.ident
    if ident = "qword" then
      let imm ← immediate
      return .imm imm (some .QWORD)
    else if startsWith ident "xmm" then
      let x ← parseXmm ident
      return .xmm x
    else
      let r ← parseRegister X ident
      return .reg r
  else if (← P.peekInt) && (← isSingle) then
    let (n, suf) ← P.litInt
    return .imm (intTokens n suf) none
  else if ← P.peekGroup .bracket then
    let a ← indAddr X
    return .ind a
  else if ← P.peekGroup .paren then
    let gr ← P.group .paren
    return .imm gr none
  else P.err

end

/-- `Cond::from`, inst.rs:174-211 -/
def condFrom (s : String) : Option Cond :=
  [("o", .O), ("no", .No), ("b", .B), ("c", .B), ("nae", .B), ("ae", .Ae), ("nc", .Ae), ("eq", .Eq), ("e", .Eq),
   ("z", .Eq), ("ne", .Ne), ("nz", .Ne), ("be", .Be), ("na", .Be), ("a", .A), ("nbe", .A), ("s", .S), ("ns", .Ns),
   ("p", .P), ("pe", .P), ("np", .Np), ("po", .Np), ("lt", .Lt), ("l", .Lt), ("nge", .Lt), ("ge", .Ge), ("nl", .Ge),
   ("le", .Le), ("ng", .Le), ("gt", .Gt), ("g", Cond.Gt), ("nle", .Gt)].lookup s

/-- Statement of the parser. -/
abbrev TInst := Inst (List Tok) String

/-- `parse_3op!`, inst.rs:228-240 -/
def parse3 {α β γ : Type} (p : P α) (q : P β) (r : P γ) (f : α → β → γ → TInst) : P TInst := do
  let op1 ← p
  P.punct ','
  let op2 ← q
  P.punct ','
  let op3 ← r
  P.punct ';'
  return f op1 op2 op3

/-- `parse_2op!`, `parse_2op_sized!`, `parse_cmov!`, inst.rs:242-252, 216-226, 293-303 -/
def parse2 {α β : Type} (p : P α) (q : P β) (f : α → β → TInst) : P TInst := do
  let op1 ← p
  P.punct ','
  let op2 ← q
  P.punct ';'
  return f op1 op2

/-- `parse_1op!`, `parse_jcc!`, `parse_set!`, inst.rs:254-262, 273-291 -/
def parse1 {α : Type} (p : P α) (f : α → TInst) : P TInst := do
  let op ← p
  P.punct ';'
  return f op

/-- `parse_0op!`, inst.rs:264-271 -/
def parse0 (i : TInst) : P TInst := do
  P.punct ';'
  return i

/-- `"dq"`, inst.rs:454-466 -/
def parseDq : P TInst := do
  if ← P.peekFloat then
    let f ← P.litFloat
    P.punct ';'
    return .F64 f
  else if ← P.peekInt then
    let (n, _) ← P.litInt
    let n ← P.base10 (-9223372036854775808) 9223372036854775807 n
    P.punct ';'
    return .I64 (BitVec.ofInt 64 n)
  else P.err

section
variable (X : RustExpr)

/-- Binary operation on register/memory and register/memory/immediate, `parse_2op_sized!` -/
def alu (f : RmOperand (List Tok) String → RmiOperand (List Tok) String → TInst) : P TInst :=
  parse2 (rmOperand X) (rmiOperand X) f
def shift (f : RmOperand (List Tok) String → RiOperand (List Tok) → TInst) : P TInst :=
  parse2 (rmOperand X) (riOperand X) f
def regRm (f : Register (List Tok) → RmOperand (List Tok) String → TInst) : P TInst :=
  parse2 (register X) (rmOperand X) f
def sse (f : XmmReg (List Tok) → XmOperand (List Tok) String → TInst) : P TInst := parse2 xmm (xmOperand X) f

/-- Arms of the `match` with a literal pattern, inst.rs:311-466 -/
def mnemonics : List (String × P TInst) :=
  [("movq", parse2 (movOperand X) (movOperand X) .Movq),
   ("movl", alu X .Movl), ("movw", alu X .Movw), ("movb", alu X .Movb),
   ("movsxl", regRm X .Movsxl), ("movzxw", regRm X .Movzxw), ("movsxw", regRm X .Movsxw),
   ("movzxb", regRm X .Movzxb), ("movsxb", regRm X .Movsxb),
   ("addq", alu X (.Add .QWORD)), ("addl", alu X (.Add .DWORD)), ("addw", alu X (.Add .WORD)), ("addb", alu X (.Add .BYTE)),
   ("orq", alu X (.Or .QWORD)), ("orl", alu X (.Or .DWORD)), ("orw", alu X (.Or .WORD)), ("orb", alu X (.Or .BYTE)),
   ("adcq", alu X (.Adc .QWORD)), ("adcl", alu X (.Adc .DWORD)), ("adcw", alu X (.Adc .WORD)), ("adcb", alu X (.Adc .BYTE)),
   ("sbbq", alu X (.Sbb .QWORD)), ("sbbl", alu X (.Sbb .DWORD)), ("sbbw", alu X (.Sbb .WORD)), ("sbbb", alu X (.Sbb .BYTE)),
   ("andq", alu X (.And .QWORD)), ("andl", alu X (.And .DWORD)), ("andw", alu X (.And .WORD)), ("andb", alu X (.And .BYTE)),
   ("subq", alu X (.Sub .QWORD)), ("subl", alu X (.Sub .DWORD)), ("subw", alu X (.Sub .WORD)), ("subb", alu X (.Sub .BYTE)),
   ("xorq", alu X (.Xor .QWORD)), ("xorl", alu X (.Xor .DWORD)), ("xorw", alu X (.Xor .WORD)), ("xorb", alu X (.Xor .BYTE)),
   ("cmpq", alu X (.Cmp .QWORD)), ("cmpl", alu X (.Cmp .DWORD)), ("cmpw", alu X (.Cmp .WORD)), ("cmpb", alu X (.Cmp .BYTE)),
   ("xchgq", parse2 (rmOperand X) (rmOperand X) (.Xchg .QWORD)), ("xchgl", parse2 (rmOperand X) (rmOperand X) (.Xchg .DWORD)),
   ("xchgw", parse2 (rmOperand X) (rmOperand X) (.Xchg .WORD)), ("xchgb", parse2 (rmOperand X) (rmOperand X) (.Xchg .BYTE)),
   ("negq", parse1 (rmOperand X) .Negq),
   ("imul", parse2 (rmiOperand X) (rmiOperand X) .Imul),
   ("idiv", parse1 (rmOperand X) .Idiv), ("idivq", parse1 (rmOperand X) .Idiv), ("idivl", parse1 (rmOperand X) .Idivl),
   ("div", parse1 (rmOperand X) .Div), ("divq", parse1 (rmOperand X) .Div), ("divl", parse1 (rmOperand X) .Divl),
   ("testq", shift X .Testq), ("testb", shift X .Testb),
   ("lea", parse2 (rmOperand X) (rmOperand X) .Lea),
   ("cqo", parse0 .Cqo), ("cdq", parse0 .Cdq), ("int3", parse0 .Int3),
   ("shlq", shift X (.Shl .QWORD)), ("shrq", shift X (.Shr .QWORD)), ("salq", shift X (.Sal .QWORD)),
   ("sarq", shift X (.Sar .QWORD)), ("rolq", shift X (.Rol .QWORD)), ("rorq", shift X (.Ror .QWORD)),
   -- `shll` is parsed as `sall`
   ("shll", shift X (.Sal .DWORD)), ("shrl", shift X (.Shr .DWORD)), ("sall", shift X (.Sal .DWORD)),
   ("sarl", shift X (.Sar .DWORD)), ("roll", shift X (.Rol .DWORD)), ("rorl", shift X (.Ror .DWORD)),
   ("movsd", parse2 (xmOperand X) (xmOperand X) .Movsd),
   ("addsd", sse X .Addsd), ("subsd", sse X .Subsd), ("mulsd", sse X .Mulsd), ("divsd", sse X .Divsd),
   ("minsd", sse X .Minsd), ("maxsd", sse X .Maxsd), ("xorps", sse X .Xorps), ("ucomisd", sse X .UComIsd),
   ("andpd", sse X .Andpd), ("xorpd", sse X .Xorpd),
   ("roundpd", parse3 xmm (xmOperand X) immediate .Roundpd),
   ("cvtsi2sdq", parse2 xmm (rmOperand X) .Cvtsi2sdq),
   ("cvttsd2siq", parse2 (register X) (xmOperand X) .Cvttsd2siq),
   ("sqrtpd", sse X .Sqrtpd), ("sqrtsd", sse X .Sqrtsd),
   ("pushq", parse1 (rmOperand X) .Pushq), ("popq", parse1 (rmOperand X) .Popq),
   ("call", parse1 (dest X) .Call), ("ret", parse0 .Ret), ("jmp", parse1 (dest X) .Jmp),
   ("jo", parse1 P.ident (.Jcc .O)), ("jno", parse1 P.ident (.Jcc .No)), ("jb", parse1 P.ident (.Jcc .B)),
   ("jc", parse1 P.ident (.Jcc .B)), ("jnae", parse1 P.ident (.Jcc .B)), ("jae", parse1 P.ident (.Jcc .Ae)),
   ("jnc", parse1 P.ident (.Jcc .Ae)), ("jeq", parse1 P.ident (.Jcc .Eq)), ("je", parse1 P.ident (.Jcc .Eq)),
   ("jz", parse1 P.ident (.Jcc .Eq)), ("jne", parse1 P.ident (.Jcc .Ne)), ("jnz", parse1 P.ident (.Jcc .Ne)),
   ("jbe", parse1 P.ident (.Jcc .Be)), ("jna", parse1 P.ident (.Jcc .Be)), ("ja", parse1 P.ident (.Jcc .A)),
   ("jnbe", parse1 P.ident (.Jcc .A)), ("js", parse1 P.ident (.Jcc .S)), ("jns", parse1 P.ident (.Jcc .Ns)),
   ("jp", parse1 P.ident (.Jcc .P)), ("jpe", parse1 P.ident (.Jcc .P)), ("jnp", parse1 P.ident (.Jcc .Np)),
   ("jpo", parse1 P.ident (.Jcc .Np)), ("jlt", parse1 P.ident (.Jcc .Lt)), ("jnge", parse1 P.ident (.Jcc .Lt)),
   ("jge", parse1 P.ident (.Jcc .Ge)), ("jnl", parse1 P.ident (.Jcc .Ge)), ("jle", parse1 P.ident (.Jcc .Le)),
   ("jng", parse1 P.ident (.Jcc .Le)), ("jgt", parse1 P.ident (.Jcc .Gt)), ("jnle", parse1 P.ident (.Jcc .Gt)),
   ("syscall", parse0 .Syscall), ("leave", parse0 .Leave),
   ("lzcntq", regRm X (.Lzcnt .QWORD)), ("tzcntq", regRm X (.Tzcnt .QWORD)), ("popcntq", regRm X (.Popcnt .QWORD)),
   ("lzcntl", regRm X (.Lzcnt .DWORD)), ("tzcntl", regRm X (.Tzcnt .DWORD)), ("popcntl", regRm X (.Popcnt .DWORD)),
   ("dq", parseDq)]

/-- `s if s.starts_with("cmov")`, inst.rs:468-488 -/
def parseCmov (s : String) : P TInst :=
  match s.toList.getLast? with
  | none => P.err
  | some c =>
    let width : Option OperandSize :=
      if c = 'q' then some .QWORD else if c = 'l' then some .DWORD else if c = 'w' then some .WORD else none
    match width with
    | none => P.err
    | some width =>
      if s.toList.length ≤ 5 then P.err
      else match condFrom (String.ofList ((s.toList.drop 4).dropLast)) with
        | some cond => parse2 (register X) (rmOperand X) (.Cmovcc width cond)
        | none => P.err

/-- `s if s.starts_with("set")`, inst.rs:490-499 -/
def parseSet (s : String) : P TInst :=
  if s.toList.length ≤ 3 then P.err
  else match condFrom (String.ofList (s.toList.drop 3)) with
    | some cond => parse1 (rmOperand X) (.Setcc cond)
    | none => P.err

/-- The operands, after the mnemonic: `match ident.to_string().as_str()`, inst.rs:310-502 -/
def parseOperands (s : String) : P TInst :=
  match (mnemonics X).lookup s with
  | some p => p
  | none =>
    if startsWith s "cmov" then parseCmov X s
    else if startsWith s "set" then parseSet X s
    else P.err

/-- `Parse for Inst`, inst.rs:214-505 -/
def parseInst : P TInst := do
  let ident ← P.ident
  if ← P.peekPunct ':' then
    P.punct ':'
    return .Label ident
  else parseOperands X ident

/-- The loop of `Parse for Stmts`, inst.rs:32-39. The first argument bounds the number of statements
    (each one takes at least one token). -/
def parseLoop : Nat → List Tok → Except ParseError (List TInst)
  | _, [] => .ok []
  | 0, _ :: _ => .error .syntaxError
  | n + 1, ts => match parseInst X ts with
    | .error e => .error e
    | .ok (i, rest) => match parseLoop n rest with
      | .error e => .error e
      | .ok is => .ok (i :: is)

/-- The statements of `Parse for Stmts`. -/
def parseInsts (ts : List Tok) : Except ParseError (List TInst) := parseLoop X ts.length ts

/-- `Parse for Stmts`, inst.rs:24-42: the expression for the code buffer and the statements -/
def parseStmts (ts : List Tok) : Except ParseError (List Tok × List TInst) :=
  match (do let base ← parseExpr X; P.punct ','; return base : P (List Tok)) ts with
  | .error e => .error e
  | .ok (base, rest) => match parseInsts X rest with
    | .error e => .error e
    | .ok is => .ok (base, is)

end

end Monoasm
