import Verif.Model.Position
import Verif.Spec.Machine
import Verif.Spec.Runtime
/-
  Expressions for positions that a user of the library can write, and the numbers that they mean.
-/

namespace Spec
open Monoasm

/-- An expression of type `Pos`. -/
inductive PosExp where
  /-- `Pos::from(n)` -/
  | num (n : BitVec 64)
  /-- `Pos::from(jit.get_current())` -/
  | current
  /-- `e + d` -/
  | add (e : PosExp) (d : BitVec 32)
  /-- `e + (f - g) as i32` -/
  | shift (e f g : PosExp)
deriving DecidableEq

namespace PosExp

/-- The machine evaluates the expression. -/
def eval : PosExp → Machine.M Machine.Word
  | num n => pure n
  | current => Machine.JitMemory.get_current
  | add e d => do
    let p ← e.eval
    Machine.posAdd p d
  | shift e f g => do
    let p ← e.eval
    let q ← f.eval
    let r ← g.eval
    let d ← Machine.posSub q r
    Machine.posAdd p (d.setWidth 32)

/-- The number that the expression means; it may be negative. -/
def value (s : JitMemory) : PosExp → Int
  | num n => n.toNat
  | current => s.get_current
  | add e d => e.value s + d.toInt
  | shift e f g => e.value s + (f.value s - g.value s)

/-- The numbers on the way are not huge. Differences fit into `i32`; where overflow is checked, they
    are not negative. -/
def Modest (chk : Bool) (s : JitMemory) : PosExp → Prop
  | num n => n.toNat < 2 ^ 63
  | current => True
  | add e d => e.Modest chk s ∧ -2 ^ 63 ≤ e.value s + d.toInt ∧ e.value s + d.toInt < 2 ^ 63
  | shift e f g => e.Modest chk s ∧ f.Modest chk s ∧ g.Modest chk s
    ∧ -2 ^ 63 ≤ e.value s + (f.value s - g.value s) ∧ e.value s + (f.value s - g.value s) < 2 ^ 63
    ∧ -2 ^ 31 ≤ f.value s - g.value s ∧ f.value s - g.value s < 2 ^ 31
    ∧ (chk = true → 0 ≤ g.value s ∧ g.value s ≤ f.value s)

end PosExp

/-- `v` is the number of a position of a page. -/
def OnPage (v : Int) : Prop := 0 ≤ v ∧ v < (PAGE_SIZE : Int)

end Spec
