import Verif.Spec.Rust
import Verif.Spec.Hygiene
import Verif.Spec.Print
import Verif.Model.Splice
/-
  A parser for the Rust expressions of Spec/Rust.lean, and the code of a user who writes such expressions
  in a macro call.
-/

namespace Rust
open Monoasm (Tok RustExpr MVal Hidden User V Place)

mutual
/-- Number of tokens, those in groups included. -/
def size : List Tok → Nat
  | [] => 0
  | t :: ts => sizeOne t + size ts

def sizeOne : Tok → Nat
  | .group _ ts => size ts + 1
  | _ => 1
end

/-- The reading of tokens as a program (`Reads` in Spec/Rust.lean). The first argument bounds the depth of
    calls. -/
def read : Nat → Mode → List Tok → Option (Expr × List Tok)
  | 0, _, _ => none
  | n + 1, .unary, ts => match ts with
    | .punct '-' :: ts => (read n .unary ts).map fun (e, rest) => (.neg e, rest)
    | .punct '!' :: ts => (read n .unary ts).map fun (e, rest) => (.not e, rest)
    | .punct '*' :: ts => (read n .unary ts).map fun (e, rest) => (.deref e, rest)
    | .punct '&' :: ts => (read n .unary ts).map fun (e, rest) => (.ref e, rest)
    | .int v s :: ts => read n (.post (.lit v s)) ts
    | .float b :: ts => read n (.post (.float b)) ts
    | .ident x :: ts => read n (.post (.var x)) ts
    | .group .paren inner :: ts => match read n (.expr 0) inner with
      | some (e, []) => read n (.post (.paren e)) ts
      | _ => none
    | _ => none
  | n + 1, .post e, ts => match dotOf ts with
    | some (m, ts') => read n (.post (.method e m)) ts'
    | none => some (e, ts)
  | n + 1, .expr p, ts => match read n .unary ts with
    | some (u, ts') => read n (.loop u p) ts'
    | none => none
  | n + 1, .loop l p, ts => match castOf ts with
    | some (t, ts') => if p ≤ 7 then read n (.loop (.cast l t) p) ts' else some (l, ts)
    | none => match opOf ts with
      | some (o, ts') =>
        if p ≤ o.level then
          match read n (.expr (o.level + 1)) ts' with
          | some (r, ts'') => read n (.loop (.bin o l r) p) ts''
          | none => none
        else some (l, ts)
      | none => some (l, ts)

/-- The expression at the front of the tokens. -/
def front (ts : List Tok) : Option (Expr × List Tok) := read (4 * size ts + 2) (.expr 0) ts

/-- The expression parser made of it. -/
def readExpr : RustExpr := fun ts => (front ts).map fun (e, rest) => (e.text, rest)

/-- The expression that all the tokens make. -/
def whole (ts : List Tok) : Option Expr := match front ts with
  | some (e, []) => some e
  | _ => none

/-! ### Code of the user -/

/-- The names of variables. -/
def Expr.names : Expr → List String
  | .lit _ _ => []
  | .float _ => []
  | .var x => [x]
  | .paren e => e.names
  | .method e _ => e.names
  | .neg e => e.names
  | .not e => e.names
  | .deref e => e.names
  | .ref e => e.names
  | .cast e _ => e.names
  | .bin _ l r => l.names ++ r.names

/-- The names of variables at a place. -/
def names (e : Place × List Tok) : List String := match whole (e.1.tokens e.2) with
  | some x => x.names
  | none => []

/-- The type that the expansion asks for at a place. -/
def ty : Place → IntTy
  | .imm => i64
  | .reg => ⟨64, false⟩
  | .disp => i32
  | .minus => i32
  | .call => i64
  | .mode => ⟨8, false⟩

/-- The value at a place; `none` if its evaluation panics. -/
def valueAt (chk : Bool) (Γ : Ctx) (ρ : String → Int) (k : Place) (ts : List Tok) : Option Int := do
  eval chk Γ ρ (← whole (k.tokens ts)) (ty k)

/-- The value of the operand itself as 64-bit word: the minus sign is no part of it. -/
def toWord (k : Place) (v : Int) : V := BitVec.ofInt 64 (if k = .minus then -v else v)

/-- Type and value of a variable of the expansion. -/
def varTy : MVal → Option Ty
  | .i64 _ => some (.int i64)
  | .i32 _ => some (.int i32)
  | .i16 _ => some (.int ⟨16, true⟩)
  | .i8 _ => some (.int ⟨8, true⟩)
  | _ => none

def varVal : MVal → Int
  | .i64 v => v.toInt
  | .i32 v => v.toInt
  | .i16 v => v.toInt
  | .i8 v => v.toInt
  | _ => 0

/-- A program with the given variables and labels. Names that are taken by the expansion have their type
    and value there. -/
def user (chk : Bool) (Γ : Ctx) (ρ : String → Int) (labels : String → Nat) : User (Place × List Tok) String Unit where
  value e h w := ((valueAt chk (fun x => match h x with | some m => varTy m | none => Γ x)
    (fun x => match h x with | some m => varVal m | none => ρ x) e.1 e.2).map (toWord e.1), w)
  label l h := match h l with
    | some _ => 0
    | none => labels l

end Rust

namespace Spec
open Monoasm

/-! The expressions in an operand, from left to right, each with the place for which it is meant. -/

def Written.register : Register (List Tok) → List (Place × List Tok)
  | .reg _ => []
  | .expr e => [(.reg, e)]

def Written.xmmRegister : XmmReg (List Tok) → List (Place × List Tok)
  | .no _ => []
  | .expr e => [(.reg, e)]

def Written.address (a : IndAddr (List Tok) String) : List (Place × List Tok) :=
  register a.base
  ++ (match a.scale with | .none => [] | .s1 _ r => register r)
  ++ (match a.disp with
    | .expr negated e => [(if negated then .minus else .disp, e)]
    | .imm _ => []
    | .label _ => [])

def Written.places : Written → List (Place × List Tok)
  | .reg r | .rm (.reg r) | .rmi (.reg r) | .ri (.reg r) | .mov (.reg r) => register r
  | .xmm x | .xm (.xmm x) | .mov (.xmm x) => xmmRegister x
  | .rm (.ind a) | .rmi (.ind a) | .xm (.ind a) | .mov (.ind a) | .dest (.ind a) => address a
  | .rmi (.imm e) | .ri (.imm e) | .mov (.imm e _) => [(.imm, e)]
  | .dest (.disp e) => [(.call, e)]
  | .imm e => [(.mode, e)]
  | .dest (.reg _) | .dest (.rel _) | .label _ | .f64 _ | .i64 _ => []

end Spec
