import Verif.Spec.Print
import Verif.Spec.Accept
import Verif.Model.Display
import Verif.Model.Eval
/-
  What it means that a message shows an operand and names a statement.
-/

namespace Spec
open Monoasm

/-- Numerals are expressions and have their value. -/
structure Numerals (X : RustExpr) (ρ : List Tok → Val) : Prop where
  expr (n : Int) : IsExpr X (intTokens n "")
  value (n : Int) : ρ (intTokens n "") = BitVec.ofInt 64 n
  byte (n : Nat) : ρ [.int n "u8", .other "as", .ident "u64"] = BitVec.ofNat 64 n

/-- The conversion `e as i32` and its negative are expressions with the values they should have (in the
    low 32 bits). -/
structure Converts (X : RustExpr) (ρ : List Tok → Val) (e : List Tok) : Prop where
  expr : IsExpr X (e ++ [.other "as", .ident "i32"])
  value : (ρ (e ++ [.other "as", .ident "i32"])).setWidth 32 = (ρ e).setWidth 32
  negExpr : IsExpr X [.punct '-', .group .paren (e ++ [.other "as", .ident "i32"])]
  negValue : (ρ [.punct '-', .group .paren (e ++ [.other "as", .ident "i32"])]).setWidth 32 = -((ρ e).setWidth 32)

/-- The address has no index and no label. -/
def Plain (a : IndAddr (List Tok) String) : Prop := a.scale = .none ∧ ∀ l, a.disp ≠ .label l

/-- The name `s` is the beginning of the mnemonic, up to case. -/
def isName (s mnemonic : String) : Bool := s ≠ "" && startsWith mnemonic (lowercase s)

/-- The name `s` says which statement it is. -/
def names (s : String) (i : TInst) : Bool := isName s ((spellings i).headD "")

/-- What a message may show for an operand that was written: the operand, or a word for its class. -/
inductive ShownAs : Written → List Tok → Prop where
  | rm (o : RmOperand (List Tok) String) : ShownAs (.rm o) o.display
  | rmiReg (r : Register (List Tok)) : ShownAs (.rmi (.reg r)) r.display
  | rmiInd (a : IndAddr (List Tok) String) : ShownAs (.rmi (.ind a)) a.display
  | mov (o : MovOperand (List Tok) String) : ShownAs (.mov o) o.display
  | target (e : List Tok) : ShownAs (.dest (.disp e)) e
  | movImm (e : List Tok) (sz) : ShownAs (.mov (.imm e sz)) [.ident "Imm"]
  | movXmm (x : XmmReg (List Tok)) : ShownAs (.mov (.xmm x)) [.ident "xmm"]
  | rmiImm (e : List Tok) : ShownAs (.rmi (.imm e)) [.ident "immediate"]
  | xmInd (a : IndAddr (List Tok) String) : ShownAs (.xm (.ind a)) [.ident "m64"]

/-- The texts show operands out of the given list, in its order. -/
def InOrder (os : List Written) (ts : List (List Tok)) : Prop :=
  ∃ ps : List (Written × List Tok), (ps.map Prod.fst).Sublist os ∧ ps.map Prod.snd = ts ∧ ∀ p ∈ ps, ShownAs p.1 p.2

end Spec
