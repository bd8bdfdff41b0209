import Verif.Proofs.Frame
import Verif.Proofs.Refer
/-
  C12: `finalize` only touches relocation fields and fresh space.

  `h` is any history, with panics caught (also panics inside `finalize`).
-/

namespace Monoasm
open Spec

variable {base : Nat} {mem : Nat → Byte} {h : List Op} {s' : JitMemory}

/-- Every byte of process memory that a `finalize` changes is on one of the three pages, and either
    between the old and the new cursor of that page or inside a field recorded for a label that is
    now bound. -/
theorem C12_changes (ha : Alloc base) (hfin : JitMemory.finalize (reach base mem h) = .ok () s') {x : Nat}
    (hx : s'.mem x ≠ (reach base mem h).mem x) :
    ∃ p pos, p < 3 ∧ pos < PAGE_SIZE ∧ x = addrOf base p pos ∧
      ((cursor (reach base mem h) p ≤ pos ∧ pos < cursor s' p)
        ∨ ∃ l t a, t ∈ targets (reach base mem h) l ∧ HasAddress s' l a ∧ Covers t p pos) := by
  have f := finalize_run (inv_reach base mem h) hfin
  obtain ⟨p, hp, pos, e, hb, h3⟩ := f.mem x hx
  refine ⟨p, pos, hp, hb, e, h3.imp id ?_⟩
  rintro ⟨l, t, h1, h2, _, h4⟩
  cases e : s'.locOf l with
  | none => exact absurd e h1
  | some pc => exact ⟨l, t, _, h2, hasAddress_of_loc f.inv ha.pos e, h4⟩

/-- Bytes outside the three pages never change. -/
theorem C12_outside (hfin : JitMemory.finalize (reach base mem h) = .ok () s') {x : Nat}
    (hx : x < base ∨ base + 3 * PAGE_SIZE ≤ x) : s'.mem x = (reach base mem h).mem x := by
  refine Decidable.byContradiction fun hne => ?_
  obtain ⟨p, hp, pos, e, hc, _⟩ := (finalize_run (inv_reach base mem h) hfin).mem x hne
  have key : ∀ p base x : Nat, p < 3 → x = base + PAGE_SIZE * p + pos → pos < PAGE_SIZE →
      (x < base ∨ base + 3 * PAGE_SIZE ≤ x) → False := by
    rw [PAGE_SIZE_eq]; omega
  exact key p base x hp e hc hx

/-- Emitted code with no label reference waiting in it is left alone. -/
theorem C12_code (hfin : JitMemory.finalize (reach base mem h) = .ok () s') {p : Page} {pos : Nat}
    (hp : Settled (reach base mem h) p pos) :
    s'.mem (addrOf base p pos) = (reach base mem h).mem (addrOf base p pos) := by
  refine Decidable.byContradiction fun hne => ?_
  have hi := inv_reach base mem h
  obtain ⟨q, hq, pos', e, hb, hc⟩ := (finalize_run hi hfin).mem _ hne
  have hlt := Nat.lt_of_lt_of_le hp.1 (hi.counter p)
  have key : ∀ p q : Nat, pos < PAGE_SIZE → base + PAGE_SIZE * p + pos = base + PAGE_SIZE * q + pos' → p = q ∧ pos = pos' := by
    rw [PAGE_SIZE_eq] at *; omega
  obtain ⟨rfl, rfl⟩ := key p q hlt e
  rcases hc with hc | ⟨l, t, _, h2, h3, h4⟩
  · exact Nat.not_lt.2 hc.1 hp.1
  · exact hp.2 l t h2 h3 h4

/-- A history for which a `finalize` changes only the four bytes of one field and the eight bytes of
    a constant. -/
def C12_history : List Op :=
  [.new .label, .new (.const_i64 5), .inst (.Jmp (.rel 0)), .inst .Ret, .bind_label 0, .select_page 1, .inst .Ret]

example :
    let s := reach 0x10000000 (fun _ => 0xcc) C12_history
    let s' := (JitMemory.finalize s).state
    (JitMemory.finalize s).isOk = true
    ∧ bytes s.mem 0x10000000 7 = [0xe9, 0, 0, 0, 0, 0xc3, 0xcc] ∧ bytes s'.mem 0x10000000 7 = [0xe9, 1, 0, 0, 0, 0xc3, 0xcc]
    ∧ cursor s 0 = 6 ∧ cursor s' 0 = 24 ∧ bytes s'.mem 0x10000010 8 = [5, 0, 0, 0, 0, 0, 0, 0]
    ∧ s'.mem 0x20000000 = 0xc3 := by
  refine ⟨by decide +kernel, by decide +kernel, by decide +kernel,
    by decide +kernel, by decide +kernel, by decide +kernel, by decide +kernel⟩

end Monoasm
