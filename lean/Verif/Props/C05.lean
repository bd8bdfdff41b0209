import Verif.Proofs.History
import Verif.Proofs.Past
/-
  C05: calls on the selected page leave the other pages alone.
-/

namespace Monoasm
open Spec

/-- After any history, a call on the selected page (emission, alignment, instruction, encoder, label
    creation, constant or data registration, `bind_label`) changes neither the record - cursor,
    pending constants, code blocks - nor any byte of any other page, even if it panics; and the
    selected page stays the same. -/
theorem C05 (base : Nat) (mem : Nat → Byte) (h : List Op) (op : Op) (hop : op.onCurrent) :
    let s := reach base mem h
    let s' := (op.run s).state
    s'.page = s.page ∧ ∀ q, q ≠ s.page → s'.pages q = s.pages q
      ∧ ∀ a, inPage base q a → s'.mem a = s.mem a := by
  intro s s'
  have ht := (safe_op (ro := False) (ps := fun q => q = s.page) (op := op) s.page
    (by rintro p rfl; exact hop) (by cases op <;> simp_all [Op.isPatch, Op.onCurrent])
    (fun _ => .inr id) (fun _ => .inr id)
    (fun q hq => by cases op <;> simp_all [Op.touches, Op.onCurrent]) s (inv_reach base mem h) rfl).1
  refine ⟨ht.page, fun q hq => ⟨ht.pages q hq, fun a ha => ht.mem a ?_⟩⟩
  rintro p _ rfl hp
  exact hq (page_disjoint ha hp)

/-- After any history, the selected page is the one that was selected last: no other call changes it,
    and the selection of a page that does not exist (it panics) does not either. -/
theorem C05_selected (base : Nat) (mem : Nat → Byte) (h : List Op) :
    (reach base mem h).get_page = selected h := by
  have key : ∀ (h : List Op) (s : JitMemory), Inv base s →
      (runCaught h s).page = h.foldl (fun cur op => match op with
        | .select_page p => if p < 2 then p else cur
        | _ => cur) s.page := by
    intro h
    induction h with
    | nil => intro s _; rfl
    | cons op h ih =>
      intro s hi
      rw [runCaught_cons, List.foldl_cons, ih _ (inv_op hi op)]
      congr 1
      by_cases hp : op.pokes
      · obtain ⟨m, e, -⟩ := pokes_state hp s
        rw [e]
        cases op <;> first | rfl | cases hp
      · have other : ∀ op : Op, ¬ op.pokes → (∀ p, op ≠ .select_page p) → (op.run s).state.page = s.page := fun op hp hs =>
          (safe_op (base := base) (ro := False) (ps := fun _ => True) s.page hs
            (by cases op <;> simp_all [Op.isPatch, Op.pokes]) (fun _ => .inr id) (fun _ => .inr id) (fun _ _ => trivial) s hi trivial).1.page
        cases op with
        | select_page p =>
          show (JitMemory.select_page p s).state.page = _
          simp only [JitMemory.select_page, M.bind_def, M.assert]
          by_cases h2 : p < 2 <;> simp [h2, M.modify]
        | _ => exact other _ hp (by simp)
  exact key h _ (inv_new base mem)

example : selected [.emit [1], .select_page 1, .finalize, .select_page 7, .emit [2]] = 1 := rfl

/-- An instruction emitted while page 1 is selected leaves page 0 alone. -/
example (mem : Nat → Byte) :
    let s := reach 0x10000000 mem [.emit [1, 2, 3], .select_page 1]
    let s' := ((Op.inst .Ret).run s).state
    cursor s' 0 = cursor s 0 ∧ s'.mem 0x10000000 = s.mem 0x10000000 ∧ s.page = 1 := by
  intro s s'
  have hp : s.page = 1 := rfl
  have := (C05 0x10000000 mem [.emit [1, 2, 3], .select_page 1] (.inst .Ret) trivial).2 0
    (by rw [show (reach 0x10000000 mem [.emit [1, 2, 3], .select_page 1]).page = 1 from hp]; simp)
  exact ⟨congrArg MemPage.counter this.1, this.2 _ (by simp [inPage, PAGE_SIZE]), hp⟩

end Monoasm
