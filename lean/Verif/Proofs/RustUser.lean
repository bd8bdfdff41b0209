import Verif.Proofs.RustRead
import Verif.Proofs.Text
/-
  Helper lemmas for C73: the user who writes Rust expressions.
-/

namespace Monoasm
open Spec Rust

variable {Γ : Ctx} {ρ : String → Int} {chk : Bool} {labels : String → Nat}

theorem lexical_user : Lexical (user chk Γ ρ labels) Rust.names id where
  value e h h' hx := by
    funext w
    simp only [user, valueAt]
    cases hw : whole (e.1.tokens e.2) with
    | none => rfl
    | some x =>
      have hn : Rust.names e = x.names := by simp [Rust.names, hw]
      rw [hn] at hx
      simp only [Option.bind_eq_bind, Option.bind_some]
      rw [Rust.eval_congr x (Rust.ty e.1) fun y hy => by rw [hx y hy]; exact ⟨rfl, rfl⟩]
  label l h h' hx := by
    have : h l = h' l := hx
    simp [user, this]

/-! ### Marks on operands -/

section
variable {ε lam : Type}

theorem Register.map_placed (r : Register ε) : r.placed.map Prod.snd = r := by cases r <;> rfl
theorem XmmReg.map_placed (r : XmmReg ε) : r.placed.map Prod.snd = r := by cases r <;> rfl
theorem MScale.map_placed (r : MScale ε) : r.placed.map Prod.snd = r := by
  cases r <;> simp [MScale.placed, MScale.map, Register.map_placed]
theorem MDisp.map_placed (d : MDisp ε lam) : d.placed.map Prod.snd id = d := by
  cases d with
  | expr n e => cases n <;> rfl
  | _ => rfl
theorem IndAddr.map_placed (a : IndAddr ε lam) : a.placed.map Prod.snd id = a := by
  simp [IndAddr.placed, IndAddr.map, Register.map_placed, MScale.map_placed, MDisp.map_placed]
theorem RmOperand.map_placed (a : RmOperand ε lam) : a.placed.map Prod.snd id = a := by
  cases a <;> simp [RmOperand.placed, RmOperand.map, Register.map_placed, IndAddr.map_placed]
theorem RmiOperand.map_placed (a : RmiOperand ε lam) : a.placed.map Prod.snd id = a := by
  cases a <;> simp [RmiOperand.placed, RmiOperand.map, Register.map_placed, IndAddr.map_placed]
theorem RiOperand.map_placed (a : RiOperand ε) : a.placed.map Prod.snd = a := by
  cases a <;> simp [RiOperand.placed, RiOperand.map, Register.map_placed]
theorem XmOperand.map_placed (a : XmOperand ε lam) : a.placed.map Prod.snd id = a := by
  cases a <;> simp [XmOperand.placed, XmOperand.map, XmmReg.map_placed, IndAddr.map_placed]
theorem MovOperand.map_placed (a : MovOperand ε lam) : a.placed.map Prod.snd id = a := by
  cases a <;> simp [MovOperand.placed, MovOperand.map, XmmReg.map_placed, Register.map_placed, IndAddr.map_placed]
theorem Dest.map_placed (a : Dest ε lam) : a.placed.map Prod.snd id = a := by
  cases a <;> simp [Dest.placed, Dest.map, IndAddr.map_placed]

theorem map_placed (i : Inst ε lam) : i.placed.map Prod.snd id = i := by
  cases i <;> simp [Inst.placed, Inst.map, Register.map_placed, XmmReg.map_placed, RmOperand.map_placed, RmiOperand.map_placed,
    RiOperand.map_placed, XmOperand.map_placed, MovOperand.map_placed, Dest.map_placed]

theorem IndAddr.labels_placed (a : IndAddr ε lam) : a.placed.labels = a.labels := by
  obtain ⟨b, s, d⟩ := a
  cases d with
  | expr n e => cases n <;> rfl
  | _ => rfl
theorem RmOperand.labels_placed (a : RmOperand ε lam) : a.placed.labels = a.labels := by
  cases a with
  | ind a => exact IndAddr.labels_placed a
  | _ => rfl
theorem RmiOperand.labels_placed (a : RmiOperand ε lam) : a.placed.labels = a.labels := by
  cases a with
  | ind a => exact IndAddr.labels_placed a
  | _ => rfl
theorem XmOperand.labels_placed (a : XmOperand ε lam) : a.placed.labels = a.labels := by
  cases a with
  | ind a => exact IndAddr.labels_placed a
  | _ => rfl
theorem MovOperand.labels_placed (a : MovOperand ε lam) : a.placed.labels = a.labels := by
  cases a with
  | ind a => exact IndAddr.labels_placed a
  | _ => rfl
theorem Dest.labels_placed (a : Dest ε lam) : a.placed.labels = a.labels := by
  cases a with
  | ind a => exact IndAddr.labels_placed a
  | _ => rfl

theorem labels_placed (i : Inst ε lam) : i.placed.labels = i.labels := by
  cases i <;> simp [Inst.placed, Inst.labels, RmOperand.labels_placed, RmiOperand.labels_placed,
    XmOperand.labels_placed, MovOperand.labels_placed, Dest.labels_placed]
end

theorem setWidth32_ofInt (v : Int) : (BitVec.ofInt 64 v).setWidth 32 = BitVec.ofInt 32 v := by
  apply BitVec.eq_of_toNat_eq
  simp only [BitVec.toNat_setWidth, BitVec.toNat_ofInt]
  rw [← Int.toNat_natCast ((v % ((2 ^ 64 : Nat) : Int)).toNat % 2 ^ 32)]
  congr 1
  simp only [Int.natCast_emod]
  omega

theorem setWidth8_ofInt (v : Int) : (BitVec.ofInt 64 v).setWidth 8 = BitVec.ofInt 8 v := by
  apply BitVec.eq_of_toNat_eq
  simp only [BitVec.toNat_setWidth, BitVec.toNat_ofInt]
  rw [← Int.toNat_natCast ((v % ((2 ^ 64 : Nat) : Int)).toNat % 2 ^ 8)]
  congr 1
  simp only [Int.natCast_emod]
  omega

end Monoasm
