import Verif.Model.Parse
import Verif.Model.Eval
import Verif.Spec.Source
import Verif.Spec.Hygiene
/-
  Specification: assembly text. `tokens` gives the token trees of a text of the kind used in the tests
  and the manual (identifiers, integer literals, punctuation, groups and comments; no strings,
  characters, lifetimes, floats or keywords other than `as`), and `assemble` the statements that the macro assembles
  for such a text, with given values of the Rust variables.
-/

namespace Spec
open Monoasm

/-- Tokens with delimiters not yet matched. -/
inductive Flat where
  | one (t : Tok)
  | opens (d : Delim)
  | closes (d : Delim)

def isWord (c : Char) : Bool := c.isAlphanum || c = '_'

/-- Value of digits in the given base. -/
def number (base : Nat) (cs : List Char) : Nat :=
  cs.foldl (fun n c => base * n + (if c.isDigit then c.toNat - '0'.toNat else c.toLower.toNat - 'a'.toNat + 10)) 0

def isHex (c : Char) : Bool := c.isDigit || ('a' ≤ c.toLower && c.toLower ≤ 'f')

/-- An integer literal: digits, then a suffix. -/
def literal (w : List Char) : Tok :=
  let w := w.filter (· ≠ '_')
  match w with
  | '0' :: 'x' :: ds => .int (number 16 (ds.takeWhile isHex)) (String.ofList (ds.dropWhile isHex))
  | ds => .int (number 10 (ds.takeWhile Char.isDigit)) (String.ofList (ds.dropWhile Char.isDigit))

/-- An identifier or the keyword `as`. -/
def word (w : String) : Tok := if w = "as" then .other w else .ident w

/-- Split into tokens. The first argument is a bound for their number. -/
def flat : Nat → List Char → List Flat
  | 0, _ => []
  | _, [] => []
  | n + 1, c :: cs =>
    if c.isWhitespace then flat n cs
    else if c = '/' && cs.head? = some '/' then flat n (cs.dropWhile (· ≠ '\n'))
    else if c.isDigit then .one (literal ((c :: cs).takeWhile isWord)) :: flat n (cs.dropWhile isWord)
    else if isWord c then .one (word (String.ofList ((c :: cs).takeWhile isWord))) :: flat n (cs.dropWhile isWord)
    else match c with
      | '(' => .opens .paren :: flat n cs
      | ')' => .closes .paren :: flat n cs
      | '[' => .opens .bracket :: flat n cs
      | ']' => .closes .bracket :: flat n cs
      | '{' => .opens .brace :: flat n cs
      | '}' => .closes .brace :: flat n cs
      | c => .one (.punct c) :: flat n cs

/-- Match delimiters. `stack` are the enclosing groups with the tokens before the current group, `cur`
    the tokens of the current group (both last first). -/
def trees (stack : List (Delim × List Tok)) (cur : List Tok) : List Flat → Option (List Tok)
  | [] => if stack.isEmpty then some cur.reverse else none
  | .one t :: fs => trees stack (t :: cur) fs
  | .opens d :: fs => trees ((d, cur) :: stack) [] fs
  | .closes d :: fs => match stack with
    | (d', before) :: stack => if d = d' then trees stack (.group d cur.reverse :: before) fs else none
    | [] => none

def tokens (text : String) : Option (List Tok) := trees [] [] (flat text.length text.toList)

/-- The expressions that occur are the whole contents of their parentheses. -/
def wholeExpr : RustExpr
  | [] => none
  | ts => some (ts, [])

/-- Rust expressions made of integer literals, variables and paths, arithmetic, parentheses and conversions between
    64-bit integer types. -/
inductive Operand where
  | value (v : Val)
  | var (x : String)
  | neg (a : Operand)
  | add (a b : Operand)
  | sub (a b : Operand)
  | mul (a b : Operand)
  | rem (a b : Operand)
  /-- expressions of other forms -/
  | unknown
  deriving DecidableEq

/-- The rest of a path `a::b::c`. -/
def path (x : String) : List Tok → String × List Tok
  | .punct ':' :: .punct ':' :: .ident y :: ts => path (x ++ "::" ++ y) ts
  | ts => (x, ts)

/-- Levels of binding: `+` and `-`, then `*` and `%`, then the rest. -/
inductive Level where
  | sum
  | product
  | atom

mutual
/-- Parser of expressions. The first argument bounds the depth of calls. -/
def expression : Nat → Level → List Tok → Option (Operand × List Tok)
  | 0, _, _ => none
  | n + 1, .sum, ts => match expression n .product ts with
    | some (a, rest) => more n .sum a rest
    | none => none
  | n + 1, .product, ts => match expression n .atom ts with
    | some (a, rest) => more n .product a rest
    | none => none
  | n + 1, .atom, .punct '-' :: ts => match expression n .atom ts with
    | some (a, rest) => some (.neg a, rest)
    | none => none
  | n + 1, .atom, .int v _ :: ts => more n .atom (.value (BitVec.ofNat 64 v)) ts
  | n + 1, .atom, .ident x :: ts => more n .atom (.var (path x ts).1) (path x ts).2
  | n + 1, .atom, .group .paren g :: ts => match expression n .sum g with
    | some (a, []) => more n .atom a ts
    | _ => none
  | _ + 1, .atom, _ => none

/-- What follows an expression. -/
def more : Nat → Level → Operand → List Tok → Option (Operand × List Tok)
  | 0, _, _, _ => none
  | n + 1, .sum, a, .punct '+' :: ts => match expression n .product ts with
    | some (b, rest) => more n .sum (.add a b) rest
    | none => none
  | n + 1, .sum, a, .punct '-' :: ts => match expression n .product ts with
    | some (b, rest) => more n .sum (.sub a b) rest
    | none => none
  | n + 1, .product, a, .punct '*' :: ts => match expression n .atom ts with
    | some (b, rest) => more n .product (.mul a b) rest
    | none => none
  | n + 1, .product, a, .punct '%' :: ts => match expression n .atom ts with
    | some (b, rest) => more n .product (.rem a b) rest
    | none => none
  | n + 1, .atom, a, .other "as" :: .ident t :: ts => if t = "u64" ∨ t = "i64" ∨ t = "usize" then more n .atom a ts else none
  | _ + 1, _, a, ts => some (a, ts)
end

def operand (ts : List Tok) : Operand :=
  match expression 100 .sum ts with
  | some (e, []) => e
  | _ => .unknown

def Operand.known : Operand → Bool
  | .unknown => false
  | _ => true

/-- Value of an operand as 64-bit number: arithmetic wraps around, remainders are unsigned. -/
def Operand.eval (vars : String → Val) : Operand → Val
  | .value v => v
  | .var x => vars x
  | .neg a => - a.eval vars
  | .add a b => a.eval vars + b.eval vars
  | .sub a b => a.eval vars - b.eval vars
  | .mul a b => a.eval vars * b.eval vars
  | .rem a b => a.eval vars % b.eval vars
  | .unknown => 0

/-- Evaluating the operand panics: a remainder by zero. (Checks for overflow are off.) -/
def Operand.panics (vars : String → Val) : Operand → Bool
  | .neg a => a.panics vars
  | .add a b => a.panics vars || b.panics vars
  | .sub a b => a.panics vars || b.panics vars
  | .mul a b => a.panics vars || b.panics vars
  | .rem a b => a.panics vars || b.panics vars || b.eval vars == 0
  | _ => false

/-- The statements of a text; `none` if it has expressions of other forms. -/
def statements (text : String) : Option (List (Inst Operand String)) :=
  match tokens text with
  | none => none
  | some ts => match parseInsts wholeExpr ts with
    | .error _ => none
    | .ok is =>
      let is := is.map (Inst.map operand id)
      if is.all fun i => i.exprs.all Operand.known then some is else none

/-- The statements assembled for a text, given values of the variables in scope. -/
def assemble (vars : String → Val) (labels : String → Nat) (text : String) : Option (List (Inst Val Nat)) :=
  (statements text).map fun is => is.map (Inst.map (Operand.eval vars) labels)

/-- The variables in an operand. -/
def Operand.names : Operand → List String
  | .value _ => []
  | .var x => [x]
  | .neg a => a.names
  | .add a b => a.names ++ b.names
  | .sub a b => a.names ++ b.names
  | .mul a b => a.names ++ b.names
  | .rem a b => a.names ++ b.names
  | .unknown => []

/-- The 64-bit word for a variable of the expansion. -/
def wordOf : MVal → Val
  | .i64 v => v
  | .i32 v => v.signExtend 64
  | .i16 v => v.signExtend 64
  | .i8 v => v.signExtend 64
  | _ => 0

/-- A program with the variables `vars` and the labels `labels`. Names that are taken by the expansion
    have their value there. -/
def scope (vars : String → Val) (labels : String → Nat) : User Operand String Unit where
  value e h w :=
    let vars := fun x => match h x with
      | some m => wordOf m
      | none => vars x
    (if e.panics vars then none else some (e.eval vars), w)
  label l h := match h l with
    | some _ => 0
    | none => labels l

end Spec
