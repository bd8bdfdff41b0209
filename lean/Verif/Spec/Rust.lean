import Verif.Model.Parse
/-
  Rust expressions made of literals, variables, parentheses, method calls without arguments, the unary
  operators `-`, `!`, `*`, `&`, conversions `e as T` and the arithmetic and bit operators, as the Rust
  reference describes them: how tokens are read, which types they have, which values.
-/

namespace Rust
open Monoasm (Tok)

/-- Operators, with their levels in the reference's table of precedences; conversions have level 7,
    unary operators 8, method calls and atoms 9. All of them group to the left. -/
inductive BinOp where
  | mul | div | rem | add | sub | shl | shr | and | xor | or
deriving DecidableEq, Repr

def BinOp.level : BinOp → Nat
  | .mul => 6 | .div => 6 | .rem => 6
  | .add => 5 | .sub => 5
  | .shl => 4 | .shr => 4
  | .and => 3 | .xor => 2 | .or => 1

inductive Expr where
  | lit (n : Nat) (suffix : String)
  | float (bits : BitVec 64)
  | var (x : String)
  | paren (e : Expr)
  | method (e : Expr) (name : String)
  | neg (e : Expr)
  | not (e : Expr)
  | deref (e : Expr)
  | ref (e : Expr)
  | cast (e : Expr) (type : String)
  | bin (o : BinOp) (l r : Expr)
deriving DecidableEq, Repr

/-! ### Reading -/

/-- An operator at the beginning of the tokens. -/
def opOf : List Tok → Option (BinOp × List Tok)
  | .punct '*' :: ts => some (.mul, ts)
  | .punct '/' :: ts => some (.div, ts)
  | .punct '%' :: ts => some (.rem, ts)
  | .punct '+' :: ts => some (.add, ts)
  | .punct '-' :: ts => some (.sub, ts)
  | .punct '<' :: .punct '<' :: ts => some (.shl, ts)
  | .punct '>' :: .punct '>' :: ts => some (.shr, ts)
  | .punct '&' :: ts => some (.and, ts)
  | .punct '^' :: ts => some (.xor, ts)
  | .punct '|' :: ts => some (.or, ts)
  | _ => none

/-- `as T` at the beginning of the tokens. -/
def castOf : List Tok → Option (String × List Tok)
  | .other "as" :: .ident t :: ts => some (t, ts)
  | _ => none

/-- `.name()` at the beginning of the tokens. -/
def dotOf : List Tok → Option (String × List Tok)
  | .punct '.' :: .ident m :: .group .paren [] :: ts => some (m, ts)
  | _ => none

/-- Nothing of level `p` or above can follow before `ts`. -/
def Stops (p : Nat) (ts : List Tok) : Prop :=
  (castOf ts = none ∨ 7 < p) ∧ ∀ o ts', opOf ts = some (o, ts') → o.level < p

inductive Mode where
  /-- unary operators, then an atom with method calls -/
  | unary
  /-- method calls after `e` -/
  | post (e : Expr)
  /-- an expression whose operators have level `p` or above -/
  | expr (p : Nat)
  /-- operators of level `p` or above after `l` -/
  | loop (l : Expr) (p : Nat)

/-- Reading by precedence: in the given mode the tokens are read as the expression, up to the rest. -/
inductive Reads : Mode → List Tok → Expr → List Tok → Prop where
  | neg : Reads .unary ts e rest → Reads .unary (.punct '-' :: ts) (.neg e) rest
  | not : Reads .unary ts e rest → Reads .unary (.punct '!' :: ts) (.not e) rest
  | deref : Reads .unary ts e rest → Reads .unary (.punct '*' :: ts) (.deref e) rest
  | ref : Reads .unary ts e rest → Reads .unary (.punct '&' :: ts) (.ref e) rest
  | lit : Reads (.post (.lit n s)) ts e rest → Reads .unary (.int n s :: ts) e rest
  | float : Reads (.post (.float b)) ts e rest → Reads .unary (.float b :: ts) e rest
  | var : Reads (.post (.var x)) ts e rest → Reads .unary (.ident x :: ts) e rest
  | paren : Reads (.expr 0) inner e' [] → Reads (.post (.paren e')) ts e rest →
      Reads .unary (.group .paren inner :: ts) e rest
  | method : dotOf ts = some (m, ts') → Reads (.post (.method e' m)) ts' e rest → Reads (.post e') ts e rest
  | atom : dotOf ts = none → Reads (.post e) ts e ts
  | expr : Reads .unary ts u ts' → Reads (.loop u p) ts' e rest → Reads (.expr p) ts e rest
  | cast : castOf ts = some (t, ts') → p ≤ 7 → Reads (.loop (.cast l t) p) ts' e rest → Reads (.loop l p) ts e rest
  | bin : opOf ts = some (o, ts') → p ≤ o.level → Reads (.expr (o.level + 1)) ts' r ts'' →
      Reads (.loop (.bin o l r) p) ts'' e rest → Reads (.loop l p) ts e rest
  | stop : Stops p ts → Reads (.loop l p) ts l ts

/-- The tokens are an expression, this one. -/
def Is (ts : List Tok) (e : Expr) : Prop := Reads (.expr 0) ts e []

/-! ### Types -/

structure IntTy where
  bits : Nat
  signed : Bool
deriving DecidableEq, Repr

def intTy : String → Option IntTy
  | "i8" => some ⟨8, true⟩ | "i16" => some ⟨16, true⟩ | "i32" => some ⟨32, true⟩ | "i64" => some ⟨64, true⟩
  | "u8" => some ⟨8, false⟩ | "u16" => some ⟨16, false⟩ | "u32" => some ⟨32, false⟩ | "u64" => some ⟨64, false⟩
  | "isize" => some ⟨64, true⟩ | "usize" => some ⟨64, false⟩
  | _ => none

def i32 : IntTy := ⟨32, true⟩
def i64 : IntTy := ⟨64, true⟩

def IntTy.min (t : IntTy) : Int := if t.signed then -2 ^ (t.bits - 1) else 0
def IntTy.max (t : IntTy) : Int := if t.signed then 2 ^ (t.bits - 1) - 1 else 2 ^ t.bits - 1
def IntTy.Fits (t : IntTy) (v : Int) : Prop := t.min ≤ v ∧ v ≤ t.max
instance (t : IntTy) (v : Int) : Decidable (t.Fits v) := inferInstanceAs (Decidable (_ ∧ _))

inductive Ty where
  | int (t : IntTy)
  | f64
  /-- `[u8; 8]` -/
  | bytes
  | ref (t : Ty)
deriving DecidableEq, Repr

/-- Types of the variables. -/
abbrev Ctx := String → Option Ty

/-- The integer type that the parts of an expression force on it; none if it has literals without suffix
    only. -/
def forced (Γ : Ctx) : Expr → Option IntTy
  | .lit _ s => intTy s
  | .var x => match Γ x with | some (.int t) => some t | _ => none
  | .paren e => forced Γ e
  | .neg e => forced Γ e
  | .not e => forced Γ e
  | .cast _ t => intTy t
  | .bin .shl l _ => forced Γ l
  | .bin .shr l _ => forced Γ l
  | .bin _ l r => (forced Γ l).orElse fun _ => forced Γ r
  | _ => none

/-- The integer type of an expression when `t` is wanted: a literal adapts to it. -/
def typeFor (Γ : Ctx) (t : IntTy) : Expr → IntTy
  | .paren e => typeFor Γ t e
  | .neg e => typeFor Γ t e
  | .not e => typeFor Γ t e
  | .lit n s => (forced Γ (.lit n s)).getD t
  | e => (forced Γ e).getD i32

/-- The expression can have the type. -/
def HasTy (Γ : Ctx) : Expr → Ty → Prop
  | .lit n s, .int t => (s = "" ∨ intTy s = some t) ∧ (n : Int) ≤ t.max
  | .float _, .f64 => True
  | .var x, t => Γ x = some t
  | .paren e, t => HasTy Γ e t
  | .method e m, t => m = "to_ne_bytes" ∧ t = .bytes ∧ HasTy Γ e .f64
  | .neg (.lit n s), .int t => t.signed ∧ (s = "" ∨ intTy s = some t) ∧ -(n : Int) ≥ t.min
  | .neg e, .int t => t.signed ∧ HasTy Γ e (.int t)
  | .neg e, .f64 => HasTy Γ e .f64
  | .not e, .int t => HasTy Γ e (.int t)
  | .deref e, t => HasTy Γ e (.ref t)
  | .ref e, .ref t => HasTy Γ e t
  | .cast e s, .int t => intTy s = some t ∧ HasTy Γ e (.int (typeFor Γ t e))
  | .bin .shl l r, .int t => HasTy Γ l (.int t) ∧ HasTy Γ r (.int ((forced Γ r).getD i32))
  | .bin .shr l r, .int t => HasTy Γ l (.int t) ∧ HasTy Γ r (.int ((forced Γ r).getD i32))
  | .bin _ l r, .int t => HasTy Γ l (.int t) ∧ HasTy Γ r (.int t)
  | _, _ => False

/-! ### Values -/

/-- The value modulo `2 ^ bits`. -/
def IntTy.wrap (t : IntTy) (v : Int) : Int := if t.signed then Int.bmod v (2 ^ t.bits) else v % 2 ^ t.bits

/-- The result of an operation: overflow panics in builds with overflow checks and wraps in others. -/
def IntTy.result (chk : Bool) (t : IntTy) (v : Int) : Option Int :=
  if t.Fits v then some v else if chk then none else some (t.wrap v)

/-- An operation on the bits of two values. -/
def IntTy.bitwise (t : IntTy) (f : BitVec t.bits → BitVec t.bits → BitVec t.bits) (a b : Int) : Int :=
  t.wrap (f (.ofInt _ a) (.ofInt _ b)).toNat

/-- The result of an operator; `none` if it panics. -/
def BinOp.apply (chk : Bool) (t : IntTy) : BinOp → Int → Int → Option Int
  | .add, a, b => t.result chk (a + b)
  | .sub, a, b => t.result chk (a - b)
  | .mul, a, b => t.result chk (a * b)
  | .div, a, b => if b = 0 ∨ ¬ t.Fits (a.tdiv b) then none else some (a.tdiv b)
  | .rem, a, b => if b = 0 ∨ ¬ t.Fits (a.tdiv b) then none else some (a.tmod b)
  | .shl, a, b => if chk ∧ ¬ (0 ≤ b ∧ b < t.bits) then none else some (t.wrap (a * 2 ^ (b % t.bits).toNat))
  | .shr, a, b => if chk ∧ ¬ (0 ≤ b ∧ b < t.bits) then none else some (a / 2 ^ (b % t.bits).toNat)
  | .and, a, b => some (t.bitwise (· &&& ·) a b)
  | .xor, a, b => some (t.bitwise (· ^^^ ·) a b)
  | .or, a, b => some (t.bitwise (· ||| ·) a b)

/-- The value of an expression of an integer type, for given values of the variables; `none` if the
    evaluation panics. -/
def eval (chk : Bool) (Γ : Ctx) (ρ : String → Int) : Expr → IntTy → Option Int
  | .lit n _, _ => some n
  | .var x, _ => some (ρ x)
  | .paren e, t => eval chk Γ ρ e t
  | .neg (.lit n _), _ => some (-n)
  | .neg e, t => do t.result chk (-(← eval chk Γ ρ e t))
  | .not e, t => do return t.wrap (-(← eval chk Γ ρ e t) - 1)
  | .cast e _, t => do return t.wrap (← eval chk Γ ρ e (typeFor Γ t e))
  | .bin .shl l r, t => do BinOp.shl.apply chk t (← eval chk Γ ρ l t) (← eval chk Γ ρ r ((forced Γ r).getD i32))
  | .bin .shr l r, t => do BinOp.shr.apply chk t (← eval chk Γ ρ l t) (← eval chk Γ ρ r ((forced Γ r).getD i32))
  | .bin o l r, t => do o.apply chk t (← eval chk Γ ρ l t) (← eval chk Γ ρ r t)
  | _, _ => none

/-- The variables have values of their types. -/
def Typed (Γ : Ctx) (ρ : String → Int) : Prop := ∀ x t, Γ x = some (.int t) → t.Fits (ρ x)

/-! ### Texts -/

def BinOp.text : BinOp → List Tok
  | .mul => [.punct '*'] | .div => [.punct '/'] | .rem => [.punct '%']
  | .add => [.punct '+'] | .sub => [.punct '-']
  | .shl => [.punct '<', .punct '<'] | .shr => [.punct '>', .punct '>']
  | .and => [.punct '&'] | .xor => [.punct '^'] | .or => [.punct '|']

def Expr.text : Expr → List Tok
  | .lit n s => [.int n s]
  | .float b => [.float b]
  | .var x => [.ident x]
  | .paren e => [.group .paren e.text]
  | .method e m => e.text ++ [.punct '.', .ident m, .group .paren []]
  | .neg e => .punct '-' :: e.text
  | .not e => .punct '!' :: e.text
  | .deref e => .punct '*' :: e.text
  | .ref e => .punct '&' :: e.text
  | .cast e t => e.text ++ [.other "as", .ident t]
  | .bin o l r => l.text ++ o.text ++ r.text

def Expr.level : Expr → Nat
  | .neg _ | .not _ | .deref _ | .ref _ => 8
  | .cast _ _ => 7
  | .bin o _ _ => o.level
  | _ => 9

/-- The parts have the levels that their places ask for. -/
def Expr.Proper : Expr → Prop
  | .paren e => e.Proper
  | .method e _ => e.Proper ∧ 9 ≤ e.level
  | .neg e | .not e | .deref e | .ref e => e.Proper ∧ 8 ≤ e.level
  | .cast e _ => e.Proper ∧ 7 ≤ e.level
  | .bin o l r => l.Proper ∧ r.Proper ∧ o.level ≤ l.level ∧ o.level < r.level
  | _ => True

/-- The last operand converted: what `as T` after the expression applies to. -/
def Expr.castLast (t : String) : Expr → Expr
  | .bin o l r => .bin o l (r.castLast t)
  | e => .cast e t

/-! ### Classes of expressions -/

/-- Addition, subtraction, multiplication and the operators on bits. -/
def BinOp.Ring : BinOp → Prop
  | .add | .sub | .mul | .and | .xor | .or => True
  | _ => False

/-- Shifts, whose right operand has a type of its own. -/
def BinOp.Shift : BinOp → Prop
  | .shl | .shr => True
  | _ => False

/-- The operators that have the end of the expression as an operand. -/
def Expr.lastOps : Expr → List BinOp
  | .bin o _ r => o :: r.lastOps
  | _ => []

/-- All operators are those of modular arithmetic. -/
def Expr.Ring : Expr → Prop
  | .bin o l r => o.Ring ∧ l.Ring ∧ r.Ring
  | .paren e => e.Ring
  | .neg e => e.Ring
  | .not e => e.Ring
  | _ => True

/-- The operators that have the end of the expression as an operand are those of modular arithmetic, and so
    are the operators of their left operands. -/
def Expr.LastRing : Expr → Prop
  | .bin o l r => o.Ring ∧ l.Ring ∧ r.LastRing
  | _ => True

/-- The expression of a literal made out of a number. -/
def numeral (n : Int) (suffix : String) : Expr := if n < 0 then .neg (.lit n.natAbs suffix) else .lit n.natAbs suffix

end Rust
