import Verif.Proofs.LabelAddr
/-
  C07: label addresses are stable.
-/

namespace Monoasm
open Spec

variable (base : Nat) (mem : Nat → Byte) (h1 h2 : List Op) (l : DestLabel)

/-- After `bind_label(l)` (call or macro statement) the address of `l` is that of the cursor of the
    selected page at the bind, and it stays so across every later history that does not bind `l`
    again: emission, page switches, panicking calls, patches and `finalize`s (as long as no
    `finalize` loses the label table). `l` is not the label of a constant or data object still to be placed, which
    `finalize` would bind again. -/
theorem C07_bind_label (ha : Alloc base) (op : Op) (hop : op = .bind_label l ∨ op = .inst (.Label l))
    (hl : l < (reach base mem h1).labels.length) (hp : ¬ Pending (reach base mem h1) l)
    (hb : ∀ op ∈ h2, ¬ op.binds l) (hf : KeepsLabels (reach base mem (h1 ++ [op])) h2) :
    HasAddress (reach base mem (h1 ++ op :: h2)) l
      (addrOf base (reach base mem h1).page (reach base mem h1).get_current) := by
  apply hasAddress_of_loc (inv_reach _ _ _) ha.pos
  have hrun : op.run = (Op.bind_label l).run := by rcases hop with rfl | rfl <;> rfl
  obtain ⟨s', e1, e2, e3, e4, e5, e6⟩ := bind_run (p := (reach base mem h1).page) hl
  have e : reach base mem (h1 ++ [op]) = s' := by
    rw [reach, runCaught_append, runCaught_cons, hrun]
    show ((Op.bind_label l).run (reach base mem h1)).state = s'
    rw [show (Op.bind_label l).run (reach base mem h1) = .ok () s' from e1]; rfl
  rw [show h1 ++ op :: h2 = (h1 ++ [op]) ++ h2 by simp, reach, runCaught_append]
  rw [e] at hf
  have := (loc_caught hf (by rw [e3]; exact hl) (by rw [pending_congr e4]; exact hp) hb).1
  rw [show runCaught (h1 ++ [op]) (JitMemory.new base mem) = s' from e, this, e2]
  rfl

/-- The same for `bind_label_with_page(p, l)`: the cursor of page `p`. -/
theorem C07_bind_label_with_page (ha : Alloc base) (p : Page) (hp3 : p < 3)
    (hl : l < (reach base mem h1).labels.length) (hp : ¬ Pending (reach base mem h1) l)
    (hb : ∀ op ∈ h2, ¬ op.binds l)
    (hf : KeepsLabels (reach base mem (h1 ++ [.bind_label_with_page p l])) h2) :
    HasAddress (reach base mem (h1 ++ .bind_label_with_page p l :: h2)) l
      (addrOf base p (cursor (reach base mem h1) p)) := by
  apply hasAddress_of_loc (inv_reach _ _ _) ha.pos
  obtain ⟨s', e1, e2, e3, e4, e5, e6⟩ := bind_run (p := p) hl
  have e : reach base mem (h1 ++ [.bind_label_with_page p l]) = s' := by
    rw [reach, runCaught_append, runCaught_cons]
    show ((Op.bind_label_with_page p l).run (reach base mem h1)).state = s'
    have hc : checkPage p (reach base mem h1) = .ok () (reach base mem h1) := by simp [checkPage, hp3]
    rw [show (Op.bind_label_with_page p l).run (reach base mem h1) = .ok () s' from
      (ok_bind hc).trans e1]; rfl
  rw [show h1 ++ Op.bind_label_with_page p l :: h2 = (h1 ++ [.bind_label_with_page p l]) ++ h2 by simp,
    reach, runCaught_append]
  rw [e] at hf
  have := (loc_caught hf (by rw [e3]; exact hl) (by rw [pending_congr e4]; exact hp) hb).1
  rw [show runCaught (h1 ++ [.bind_label_with_page p l]) (JitMemory.new base mem) = s' from e, this, e2]
  rfl

/-- A concrete history: label 0 is bound at position 1 of page 1, later calls emit code, switch
    pages and panic. -/
example : HasAddress (reach 0x10000000 mem ([.new .label, .select_page 1, .inst .Ret] ++
      .bind_label 0 :: [.inst .Leave, .select_page 0, .inst (.Jmp (.rel 0)), .bind_label 5]))
    0 0x20000001 := by
  have := C07_bind_label 0x10000000 mem [.new .label, .select_page 1, .inst .Ret]
    [.inst .Leave, .select_page 0, .inst (.Jmp (.rel 0)), .bind_label 5] 0
    ⟨by simp [PAGE_SIZE], by decide, by simp [PAGE_SIZE]⟩ (.bind_label 0) (.inl rfl)
    (label_reach (h1 := []) (by simp [KeepsLabels])).1 (label_reach (h1 := []) (by simp [KeepsLabels])).2.1
    (by simp [Op.binds]) (by simp [KeepsLabels])
  have e : reach 0x10000000 mem [.new .label, .select_page 1, .inst .Ret]
      = emitted (reach 0x10000000 mem [.new .label, .select_page 1]) 1 [0xc3] := by
    show ((Op.inst .Ret).run (reach 0x10000000 mem [.new .label, .select_page 1])).state = _
    rw [ret_run (by show 0 + 1 ≤ _; simp [PAGE_SIZE])]; rfl
  have hp : (reach 0x10000000 mem [.new .label, .select_page 1, .inst .Ret]).page = 1 := by rw [e]; rfl
  have hc : (reach 0x10000000 mem [.new .label, .select_page 1, .inst .Ret]).get_current = 1 := by
    rw [JitMemory.get_current, hp, e]; rfl
  rw [hp, hc] at this
  simpa [addrOf, PAGE_SIZE] using this

end Monoasm
