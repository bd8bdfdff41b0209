import Verif.Spec.Operand
/-
  A REX prefix without any of its bits changes nothing but the byte registers 4 to 7.
-/

set_option linter.unusedSimpArgs false

namespace X86
open Spec (operands)

/-- The prefixes with an empty REX. -/
def Pfx.zero (p : Pfx) : Pfx := { p with rex := some 0 }

section
variable {p : Pfx} (h : p.rex = none)
include h

theorem zero_w : p.zero.w = p.w := by simp [Pfx.zero, Pfx.w, h]
theorem zero_r : p.zero.r = p.r := by simp [Pfx.zero, Pfx.r, h]
theorem zero_x : p.zero.x = p.x := by simp [Pfx.zero, Pfx.x, h]
theorem zero_b : p.zero.b = p.b := by simp [Pfx.zero, Pfx.b, h]
theorem zero_size : p.zero.size = p.size := by simp only [Pfx.size, zero_w h]; rfl
theorem zero_size' (w) : p.zero.size' w = p.size' w := by simp only [Pfx.size', zero_size h]
theorem zero_isize : p.zero.isize = p.isize := by simp only [Pfx.isize, zero_w h]
theorem zero_opReg (op) : opReg p.zero op = opReg p op := by simp only [opReg, zero_b h]
theorem zero_modrm (bs) : modrm p.zero bs = modrm p bs := by
  cases bs <;> simp only [modrm, zero_r h, zero_x h, zero_b h]

/-- Operands that are not high byte registers. -/
def Opd.low : Opd → Prop
  | .high _ => False
  | _ => True

omit h in
theorem zero_regOpd {sz r} (hl : (regOpd p sz r).low) : regOpd p.zero sz r = regOpd p sz r := by
  simp only [regOpd] at hl ⊢
  split at hl
  · exact hl.elim
  · rename_i h1
    rw [if_neg h1, if_neg (by simp [Pfx.zero])]

omit h in
theorem zero_rmOpd {sz r} (hl : (rmOpd p sz r).low) : rmOpd p.zero sz r = rmOpd p sz r := by
  cases r with
  | reg r => exact zero_regOpd hl
  | mem a => rfl

end

theorem zero_opsize (p : Pfx) : p.zero.opsize = p.opsize := rfl
theorem zero_rep (p : Pfx) : p.zero.rep = p.rep := rfl
theorem zero_fty (p : Pfx) : p.zero.fty = p.fty := rfl

/-- The two results agree if the first one has no high byte register. -/
def Agree (a b : Dec) : Prop := ∀ I r, a = some (I, r) → (∀ o ∈ operands I, Opd.low o) → b = some (I, r)

theorem Agree.refl (a) : Agree a a := fun _ _ h _ => h
theorem Agree.none (b) : Agree none b := fun _ _ h _ => by cases h
theorem Agree.ite {c : Prop} {i j : Decidable c} {a b a' b'} (h1 : Agree a a') (h2 : Agree b b') :
    Agree (@ite _ c i a b) (@ite _ c j a' b') := by split <;> assumption
theorem Agree.bind {α} {x : Option α} {f g : α → Dec} (h : ∀ a, Agree (f a) (g a)) : Agree (x >>= f) (x >>= g) := by
  cases x with
  | none => exact .none _
  | some a => exact h a
theorem Agree.some {I J r} (h : (∀ o ∈ operands I, Opd.low o) → J = I) : Agree (some (I, r)) (some (J, r)) := by
  rintro _ _ ⟨⟩ hl
  rw [h hl]

macro "agree" : tactic => `(tactic| (
  repeat' first
  | with_reducible exact Agree.refl _
  | with_reducible exact Agree.none _
  | with_reducible apply Agree.ite
  | (refine Agree.ite (c := _ = _) ?_ ?_)
  | (refine Agree.ite (c := _ ∧ _) ?_ ?_)
  | (refine Agree.ite (c := _ ∨ _) ?_ ?_)
  | (with_reducible apply Agree.bind; intro x; try dsimp only)
  | (intro a; done)
  | (apply Agree.some; intro hl; simp only [operands, List.mem_cons, List.not_mem_nil, or_false, forall_eq_or_imp, forall_eq, forall_const] at hl; simp_all [zero_regOpd, zero_rmOpd]; done)))

variable {p : Pfx} (h : p.rex = none)
include h

theorem group3_zero (w bs) : Agree (group3 p w bs) (group3 p.zero w bs) := by
  simp only [group3, zero_size' h, zero_modrm h]
  agree

theorem group5_zero (w bs) : Agree (group5 p w bs) (group5 p.zero w bs) := by
  simp only [group5, zero_size' h, zero_modrm h, zero_opsize]
  agree

theorem shiftGroup_zero (w c bs) : Agree (shiftGroup p w c bs) (shiftGroup p.zero w c bs) := by
  simp only [shiftGroup, zero_size' h, zero_modrm h, zero_opsize]
  agree

theorem map1_zero (op bs) : Agree (map1 p op bs) (map1 p.zero op bs) := by
  simp only [map1, zero_size h, zero_size' h, zero_modrm h, zero_opsize, zero_rep, zero_opReg h]
  agree
  · exact shiftGroup_zero h _ _ _
  · exact shiftGroup_zero h _ _ _
  · exact shiftGroup_zero h _ _ _
  · exact group3_zero h _ _
  · exact group5_zero h _ _

theorem map2_zero (op bs) : Agree (map2 p op bs) (map2 p.zero op bs) := by
  simp only [map2, zero_size h, zero_size' h, zero_modrm h, zero_opsize, zero_rep, zero_opReg h, zero_fty, zero_isize h]
  agree
  all_goals
    apply Agree.some
    intro hl
    rw [zero_rmOpd (hl _ (by simp [operands]))]
    rfl

theorem map3A_zero (op bs) : Agree (map3A p op bs) (map3A p.zero op bs) := by
  simp only [map3A, zero_size h, zero_size' h, zero_modrm h, zero_opsize, zero_rep, zero_opReg h, zero_fty, zero_isize h]
  agree

theorem dispatch_zero (op bs) : Agree (dispatch p op bs) (dispatch p.zero op bs) := by
  simp only [dispatch]
  apply Agree.ite
  · split
    · exact .none _
    · apply Agree.ite
      · split
        · exact .none _
        · exact map3A_zero h _ _
      · exact map2_zero h _ _
  · exact map1_zero h _ _

end X86
