import Verif.Proofs.Frame
import Verif.Spec.Blocks
/-
  Code blocks along histories.
-/

namespace Monoasm
open JitMemory Spec

/-- Only `finalize` touches the block records; cursors never decrease. -/
theorem blocks_op {base s} (hi : Inv base s) {op : Op} (hf : op ≠ .finalize) (p) :
    ((op.run s).state.pages p).code_len = (s.pages p).code_len
    ∧ ((op.run s).state.pages p).code_block_top = (s.pages p).code_block_top
    ∧ ((op.run s).state.pages p).code_block = (s.pages p).code_block
    ∧ cursor s p ≤ cursor (op.run s).state p := by
  by_cases hr : ∃ l off, op = .save_reloc l off
  · obtain ⟨l, off, rfl⟩ := hr
    have : ((Op.save_reloc l off).run s).state.pages = s.pages := by
      simp only [Op.run, JitMemory.save_reloc, M.bind_def, JitMemory.cur, MemPage.counterOf, JitMemory.modifyLabel]
      split <;> rfl
    rw [cursor, cursor, this]
    exact ⟨rfl, rfl, rfl, Nat.le_refl _⟩
  · rcases op_cases op (fun l off e => hr ⟨l, off, e⟩) with ha | hp | rfl
    · have g := (Grows.op ha s hi).2
      exact ⟨g.code_len p, g.code_block_top p, g.code_block p, g.cursor p⟩
    · obtain ⟨m, e, _⟩ := pokes_state hp s
      rw [e]; exact ⟨rfl, rfl, rfl, Nat.le_refl _⟩
    · exact absurd rfl hf

theorem blocks_caught {base s} (hi : Inv base s) {h : List Op} (hn : NoFinalize h) (p) :
    ((runCaught h s).pages p).code_len = (s.pages p).code_len
    ∧ ((runCaught h s).pages p).code_block_top = (s.pages p).code_block_top
    ∧ ((runCaught h s).pages p).code_block = (s.pages p).code_block
    ∧ cursor s p ≤ cursor (runCaught h s) p := by
  induction h generalizing s with
  | nil => exact ⟨rfl, rfl, rfl, Nat.le_refl _⟩
  | cons op ops ih =>
    have h1 : op ≠ .finalize := by rintro rfl; exact hn (List.mem_cons_self ..)
    obtain ⟨a1, a2, a3, a4⟩ := ih (inv_op hi op) (fun hm => hn (List.mem_cons_of_mem _ hm))
    obtain ⟨b1, b2, b3, b4⟩ := blocks_op hi h1 p
    rw [runCaught_cons]
    exact ⟨a1.trans b1, a2.trans b2, a3.trans b3, Nat.le_trans b4 a4⟩

theorem tiles_snoc {a z bs c e} (h : Tiles a bs z) (h1 : z ≤ c) (h2 : c ≤ e) (h3 : e ≤ PAGE_SIZE) :
    Tiles a (bs ++ [(z, c, e)]) e := by
  induction bs generalizing a with
  | nil => cases h; exact ⟨rfl, h1, h2, h3, rfl⟩
  | cons b bs ih =>
    obtain ⟨b1, b2, b3⟩ := b
    obtain ⟨k1, k2, k3, k4, k5⟩ := h
    exact ⟨k1, k2, k3, k4, ih k5⟩

/-- Invariant: the blocks of a page tile the page up to `code_block_top`, which is not beyond the
    cursor. -/
def Blocked (s : JitMemory) (p : Page) : Prop :=
  Tiles 0 (s.pages p).code_block (s.pages p).code_block_top ∧ (s.pages p).code_block_top ≤ cursor s p

theorem blocked_op {base s} (hi : Inv base s) {op : Op} (hf : op = .finalize → ∃ s', finalize s = .ok () s')
    {p} (hp : p < 3) (h : Blocked s p) :
    Blocked (op.run s).state p ∧ ((op.run s).state.pages p).code_block.length
      = (s.pages p).code_block.length + countFinalize [op] := by
  by_cases e : op = .finalize
  · subst e
    obtain ⟨s', e⟩ := hf rfl
    have f := finalize_run hi e
    simp only [Op.run, e, Res.state_ok]
    have ep := f.pages p hp
    refine ⟨⟨?_, ?_⟩, ?_⟩
    · rw [ep]; exact tiles_snoc h.1 h.2 (f.cursor p) (f.inv.counter p)
    · rw [ep]; exact Nat.le_refl _
    · rw [ep]; simp [countFinalize]
  · obtain ⟨a1, a2, a3, a4⟩ := blocks_op hi e p
    refine ⟨⟨by rw [a2, a3]; exact h.1, by rw [a2]; exact Nat.le_trans h.2 a4⟩, ?_⟩
    rw [a3]
    cases op <;> first | rfl | exact absurd rfl e

theorem blocked_caught {base s} (hi : Inv base s) {h : List Op} (hf : NoFinalizePanic s h) {p} (hp : p < 3)
    (hb : Blocked s p) :
    Blocked (runCaught h s) p ∧ ((runCaught h s).pages p).code_block.length
      = (s.pages p).code_block.length + countFinalize h := by
  induction h generalizing s with
  | nil => exact ⟨hb, rfl⟩
  | cons op ops ih =>
    obtain ⟨b1, b2⟩ := blocked_op hi hf.1 hp hb
    obtain ⟨c1, c2⟩ := ih (inv_op hi op) hf.2 b1
    rw [runCaught_cons]
    refine ⟨c1, ?_⟩
    rw [c2, b2]
    cases op <;> simp only [countFinalize] <;> omega

theorem blocked_new (base mem p) : Blocked (JitMemory.new base mem) p := ⟨rfl, Nat.le_refl _⟩

theorem blocked_reach {base mem} {h : List Op} (hf : NoFinalizePanic (JitMemory.new base mem) h) {p} (hp : p < 3) :
    Blocked (reach base mem h) p ∧ ((reach base mem h).pages p).code_block.length = countFinalize h := by
  have := blocked_caught (inv_new base mem) hf hp (blocked_new base mem p)
  refine ⟨this.1, this.2.trans ?_⟩
  simp [JitMemory.new, MemPage.new]

end Monoasm
