import Verif.Proofs.Move
/-
  C45: position independence.

  Two runs of the same history, one with the allocation at `b1` and one at `b2` (the only call with
  an address among its arguments, `apply_jmp_patch_address`, gets the corresponding address).
  Histories: any calls, `save_reloc` included; panics are caught, those of `finalize` as well.
-/

namespace Monoasm
open Spec

variable {b1 b2 : Nat} {m1 m2 : Nat → Byte} {h : List Op}

/-- The byte at offset `x` may differ: it belongs to a slot made by `abs_address`, or has not been
    written. -/
private def Differ (b1 b2 : Nat) (m1 m2 : Nat → Byte) (h : List Op) (x : Nat) (a b : Byte) : Prop :=
  a = b ∨ (∃ p pos, AbsSlot (b1 + PAGE_SIZE * p + pos) (JitMemory.new b1 m1) h ∧
    PAGE_SIZE * p + pos ≤ x ∧ x < PAGE_SIZE * p + pos + 8) ∨ (a = m1 (b1 + x) ∧ b = m2 (b2 + x))

private theorem moved (a1 : Alloc b1) (a2 : Alloc b2) (hp : PatchesFrom b1 h) :
    Shift (Differ b1 b2 m1 m2 h) b1 b2 (reach b1 m1 h) (reach b2 m2 (h.map (Op.move b1 b2)))
    ∧ AbsInv (fun p pos => AbsSlot (b1 + PAGE_SIZE * p + pos) (JitMemory.new b1 m1) h) (reach b1 m1 h) := by
  refine shift_caught (fun _ _ => .inl rfl) a1.pos a2.pos
    (P := fun p pos => AbsSlot (b1 + PAGE_SIZE * p + pos) (JitMemory.new b1 m1) h) ?_ (inv_new b1 m1) (absInv_new _ b1 m1)
    (fun _ _ => id) hp (shift_new m1 m2 fun x => .inr (.inr ⟨rfl, rfl⟩))
  intro p pos hP j hj v w
  exact .inr (.inl ⟨p, pos, hP, by omega, by omega⟩)

/-- The slots are found by the addresses of labels: when `finalize` has returned, the label of an object
    made by `abs_address` has the address of the slot. -/
theorem C45_slots (a1 : Alloc b1) {s' : JitMemory} (hf : JitMemory.finalize (reach b1 m1 h) = .ok () s') (l : DestLabel) (a : Nat) :
    HasAddress (placing (reach b1 m1 h)).state l a ↔ HasAddress s' l a := by
  have hi := inv_reach b1 m1 h
  have i1 := placing_inv hi
  have i2 : Inv b1 s' := (finalize_run hi hf).inv
  have e := placing_loc hf l
  constructor
  · intro ha
    obtain ⟨p, pos, h1, rfl⟩ := (hasAddress_iff i1 a1.pos).1 ha
    exact locOf_address i2 a1.pos (e.trans h1)
  · intro ha
    obtain ⟨p, pos, h1, rfl⟩ := (hasAddress_iff i2 a1.pos).1 ha
    exact locOf_address i1 a1.pos (e.symm.trans h1)

/-- Each byte is the same in both runs, unless it belongs to a slot made by `abs_address`, or has
    kept its initial value in both runs (bytes never written). -/
theorem C45_bytes (a1 : Alloc b1) (a2 : Alloc b2) (hp : PatchesFrom b1 h)
    (x : Nat) (hx : ∀ a, AbsSlot a (JitMemory.new b1 m1) h → ¬ (a ≤ b1 + x ∧ b1 + x < a + 8)) :
    let s1 := reach b1 m1 h
    let s2 := reach b2 m2 (h.map (Op.move b1 b2))
    s1.mem (b1 + x) = s2.mem (b2 + x) ∨ (s1.mem (b1 + x) = m1 (b1 + x) ∧ s2.mem (b2 + x) = m2 (b2 + x)) := by
  rcases (moved (m1 := m1) (m2 := m2) a1 a2 hp).1.mem x with h | ⟨p, pos, h, h1, h2⟩ | h
  · exact .inl h
  · exact absurd ⟨by omega, by omega⟩ (hx _ h)
  · exact .inr h

/-- When the allocator returns blocks with equal contents (fresh memory of the operating system is
    zero), the runs agree in all bytes except the slots made by `abs_address`. -/
theorem C45_memory (a1 : Alloc b1) (a2 : Alloc b2) (hp : PatchesFrom b1 h)
    (x : Nat) (hm : m1 (b1 + x) = m2 (b2 + x))
    (hx : ∀ a, AbsSlot a (JitMemory.new b1 m1) h → ¬ (a ≤ b1 + x ∧ b1 + x < a + 8)) :
    (reach b1 m1 h).mem (b1 + x) = (reach b2 m2 (h.map (Op.move b1 b2))).mem (b2 + x) := by
  rcases C45_bytes (m2 := m2) a1 a2 hp x hx with h | ⟨h1, h2⟩
  · exact h
  · rw [h1, h2, hm]

/-- Selected page, label positions, cursors, pending objects and code blocks are the same; the pages
    differ in their address only. -/
theorem C45_records (a1 : Alloc b1) (a2 : Alloc b2) (hp : PatchesFrom b1 h) :
    let s1 := reach b1 m1 h
    let s2 := reach b2 m2 (h.map (Op.move b1 b2))
    s1.page = s2.page ∧ s1.labels = s2.labels
    ∧ ∀ p, s2.pages p = { s1.pages p with contents := b2 + PAGE_SIZE * p } ∧ (s1.pages p).contents = b1 + PAGE_SIZE * p :=
  have s := (moved (m1 := m1) (m2 := m2) a1 a2 hp).1
  ⟨s.page, s.labels, fun p => ⟨s.pages p, s.contents1 p⟩⟩

/-- Labels are at corresponding addresses. -/
theorem C45_addresses (a1 : Alloc b1) (a2 : Alloc b2) (hp : PatchesFrom b1 h)
    {l : DestLabel} {a : Nat} (hl : HasAddress (reach b1 m1 h) l (b1 + a)) :
    HasAddress (reach b2 m2 (h.map (Op.move b1 b2))) l (b2 + a) := by
  have s := (moved (m1 := m1) (m2 := m2) a1 a2 hp).1
  have i1 := inv_reach b1 m1 h
  have i2 := inv_reach b2 m2 (h.map (Op.move b1 b2))
  obtain ⟨p, pos, e, ea⟩ := (hasAddress_iff i1 a1.pos).1 hl
  have h2 : (reach b2 m2 (h.map (Op.move b1 b2))).locOf l = some (p, pos) := by
    simp only [JitMemory.locOf] at e ⊢
    rw [← s.labels]; exact e
  have h3 := locOf_address i2 a2.pos h2
  have : a = PAGE_SIZE * p + pos := by simp only [addrOf] at ea; omega
  rw [this, ← Nat.add_assoc]
  exact h3

/-- The next call has the same outcome in both runs: both return, or both panic with the same
    message. -/
theorem C45_outcome (a1 : Alloc b1) (a2 : Alloc b2) {op : Op} (hp : PatchesFrom b1 (h ++ [op])) :
    (∃ s1 s2, op.run (reach b1 m1 h) = .ok () s1 ∧ (op.move b1 b2).run (reach b2 m2 (h.map (Op.move b1 b2))) = .ok () s2)
    ∨ ∃ e s1 s2, op.run (reach b1 m1 h) = .panic e s1 ∧
      (op.move b1 b2).run (reach b2 m2 (h.map (Op.move b1 b2))) = .panic e s2 := by
  have m := shift_caught (D := fun _ _ _ => True) (b2 := b2) (fun _ _ => trivial) a1.pos a2.pos (P := fun _ _ => True)
    (fun _ _ _ _ _ _ _ => trivial) (inv_new b1 m1) (absInv_new _ b1 m1) (fun _ _ _ => trivial)
    (fun a l hm => hp a l (List.mem_append_left _ hm)) (shift_new m1 m2 fun _ => trivial)
  have r := moved_op (op := op) (fun _ _ => trivial) a1.pos a2.pos (fun _ _ _ _ _ _ _ => trivial) (inv_reach b1 m1 h) m.2
    (fun _ _ _ _ => trivial) (fun a l e => hp a l (by simp [e])) m.1
  change RelRes _ _ _ _ (op.run (reach b1 m1 h)) ((op.move b1 b2).run (reach b2 m2 (h.map (Op.move b1 b2)))) at r
  revert r
  generalize op.run (reach b1 m1 h) = r1
  generalize (op.move b1 b2).run (reach b2 m2 (h.map (Op.move b1 b2))) = r2
  intro r
  cases r with
  | ok _ _ => exact .inl ⟨_, _, rfl, rfl⟩
  | panic e _ => exact .inr ⟨e, _, _, rfl, rfl⟩

/-- A `finalize` that panics while it places objects: `abs_address` of a label that does not exist. The runs
    go on, and agree. -/
example :
    let h : List Op := [.new .label, .new (.const_i64 7), .new (.abs_address 9), .inst (.Jmp (.rel 0)), .finalize, .inst (.Label 0),
      .inst .Ret, .finalize]
    let s1 := reach 0x10000000 (fun _ => 0xcc) h
    let s2 := reach 0x20000000 (fun _ => 0xcc) (h.map (Op.move 0x10000000 0x20000000))
    PatchesFrom 0x10000000 h ∧ ¬ NoFinalizePanic (JitMemory.new 0x10000000 fun _ => 0xcc) h
    ∧ bytes s1.mem 0x10000000 25 = [0xe9, 0x13, 0, 0, 0, 0xcc, 0xcc, 0xcc, 0xcc, 0xcc, 0xcc, 0xcc, 0xcc, 0xcc, 0xcc, 0xcc, 7, 0, 0, 0, 0, 0, 0, 0, 0xc3]
    ∧ bytes s2.mem 0x20000000 25 = bytes s1.mem 0x10000000 25 := by
  refine ⟨?_, by decide +kernel⟩
  intro a l hm
  simp at hm

/-- A history with a jump, a constant, an address object and a patch; the address object differs,
    the rest does not. -/
example :
    let h : List Op := [.new .label, .new (.const_i64 7), .new (.abs_address 0), .inst (.Label 0),
      .inst (.Jmp (.rel 0)), .finalize, .apply_jmp_patch_address 0x10000000 0]
    let s1 := reach 0x10000000 (fun _ => 0xcc) h
    let s2 := reach 0x20000000 (fun _ => 0) (h.map (Op.move 0x10000000 0x20000000))
    PatchesFrom 0x10000000 h
    ∧ s1.locOf 2 = some (0, 24) ∧ bytes s1.mem (0x10000000 + 24) 8 = littleEndian 8 0x10000000
    ∧ bytes s2.mem (0x20000000 + 24) 8 = littleEndian 8 0x20000000
    ∧ bytes s1.mem 0x10000000 5 = [0xe9, 0xfb, 0xff, 0xff, 0xff]
    ∧ bytes s2.mem 0x20000000 5 = [0xe9, 0xfb, 0xff, 0xff, 0xff] := by
  refine ⟨?_, by decide +kernel⟩
  intro a l hm
  simp at hm
  omega

end Monoasm
