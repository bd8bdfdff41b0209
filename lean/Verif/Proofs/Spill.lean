import Verif.Proofs.History
import Verif.Proofs.Appended
/-
  Writes that do not fit.
-/

namespace Monoasm
open Spec

theorem spills_of {base s} {op : Op} (hi : Inv base s) (hop : op.touches s.page = fun q => q = s.page)
    (hsel : ∀ p, op ≠ .select_page p) (hpatch : ¬ op.isPatch) {s'}
    (h : op.run s = .panic .pageSizeOverflow s') : Spills base s op.run := by
  have ht := (safe_op (ro := False) (ps := fun q => q = s.page) (op := op) s.page hsel hpatch
    (fun _ => .inr id) (fun _ => .inr id) (fun q hq => by rw [hop] at hq; exact hq) s hi rfl).1
  rw [h] at ht
  refine ⟨s', h, fun a ha => ht.mem a ?_, fun q => ⟨ht.inv.counter q, fun hq => ?_⟩⟩
  · intro p _ e; rw [e]; exact ha
  · exact congrArg MemPage.counter (ht.pages q hq)

theorem emitl_panic {p v s e s'} (h : MemPage.emitl p v s = .panic e s') : e = .pageSizeOverflow := by
  rw [emitl_run, emitRes] at h
  split at h <;> cases h; rfl

theorem emit_fits (bs) (s : JitMemory) (h : s.get_current + bs.length ≤ PAGE_SIZE) :
    JitMemory.emit bs s = .ok () (emitted s s.page bs) := by
  induction bs generalizing s with
  | nil => rw [emitted_nil]; rfl
  | cons b bs ih =>
    simp only [JitMemory.emit]
    simp only [List.length_cons, JitMemory.get_current] at h
    have h1 : JitMemory.emitb b s = .ok () (emitted s s.page [b]) := by
      simp only [JitMemory.emitb, cur_bind, emitb_run, emitRes]
      rw [if_pos (by simp only [List.length_cons, List.length_nil]; omega)]
    rw [ok_bind h1, ih]
    · rw [show b :: bs = [b] ++ bs from rfl, emitted_append]; rfl
    · simp only [JitMemory.get_current, emitted, if_true, List.length_cons, List.length_nil]
      omega

theorem emit_spills (bs) (s : JitMemory) (h1 : s.get_current ≤ PAGE_SIZE)
    (h2 : PAGE_SIZE < s.get_current + bs.length) :
    ∃ s', JitMemory.emit bs s = .panic .pageSizeOverflow s' := by
  induction bs generalizing s with
  | nil => simp at h2; omega
  | cons b bs ih =>
    simp only [JitMemory.emit]
    by_cases h3 : s.get_current + 1 ≤ PAGE_SIZE
    · have e1 : JitMemory.emitb b s = .ok () (emitted s s.page [b]) := by
        simp only [JitMemory.emitb, cur_bind, emitb_run, emitRes]
        exact if_pos h3
      rw [ok_bind e1]
      have hc : (emitted s s.page [b]).get_current = s.get_current + 1 := by
        simp [JitMemory.get_current, emitted]
      refine ih _ (by rw [hc]; exact h3) ?_
      rw [hc]; simp only [List.length_cons] at h2; omega
    · refine ⟨spilled s s.page [b], panic_bind ?_⟩
      simp only [JitMemory.emitb, cur_bind, emitb_run, emitRes]
      exact if_neg h3

/-- The state after emitting bytes that fit on the first page of a fresh `JitMemory`. -/
theorem reach_fill (base mem) (bs : List Byte) (h : bs.length ≤ PAGE_SIZE) :
    reach base mem [.emit bs] = emitted (JitMemory.new base mem) 0 bs := by
  show ((Op.emit bs).run (JitMemory.new base mem)).state = _
  simp only [Op.run]
  rw [emit_fits]
  · rfl
  · exact Nat.le_trans (Nat.le_of_eq (Nat.zero_add _)) h

end Monoasm

namespace Monoasm
open Spec JitMemory

theorem resolve_nothing (s : JitMemory) (hc : ∀ p, (s.pages p).constants = [] ∧ (s.pages p).data = []) :
    resolve_constants s = .ok () s ∧ resolve_data s = .ok () s := by
  have e1 : ∀ id, resolveConstantsOf id s = .ok () s := by
    intro id
    simp only [resolveConstantsOf, M.bind_def, M.get, M.modify, (hc id).1, resolveList]
    show Res.ok () _ = _
    congr 1
    cases s
    simp only [JitMemory.updPage, JitMemory.mk.injEq, true_and, and_true]
    funext q
    split
    · rename_i e; subst e; rw [← (hc q).1]
    · rfl
  have e2 : ∀ id, resolveDataOf id s = .ok () s := by
    intro id
    simp only [resolveDataOf, M.bind_def, M.get, M.modify, (hc id).2, resolveList]
    show Res.ok () _ = _
    congr 1
    cases s
    simp only [JitMemory.updPage, JitMemory.mk.injEq, true_and, and_true]
    funext q
    split
    · rename_i e; subst e; rw [← (hc q).2]
    · rfl
  have e3 : resolve_constants s = .ok () s := by
    simp only [resolve_constants]; rw [ok_bind (e1 0), e1]
  refine ⟨e3, ?_⟩
  simp only [resolve_data]
  rw [ok_bind (e2 0), e2]

theorem fill_loses {s : JitMemory} {c : Nat} (hc : PAGE_SIZE < c + 4)
    (hl : s.labels = [⟨some (0, c), [.rel 0 4 c]⟩]) :
    ∃ s', fill_relocs s = .panic .pageSizeOverflow s' ∧ s'.labels = [] := by
  have e : ((((s.pages 0).contents + c : Nat) : Int)
      - (((s.pages 0).contents + c + (4 : BitVec 8).toNat : Nat) : Int)) = -4 := by
    have : (4 : BitVec 8).toNat = 4 := rfl
    omega
  have e1 : i32TryFromInt (-4) = some (BitVec.ofInt 32 (-4)) := rfl
  have h0 : fill_relocs s = (do
      let reloc ← fillLabels [⟨some (0, c), [.rel 0 4 c]⟩]
      M.modify fun s => { s with labels := reloc } : M Unit) { s with labels := [] } := by
    rw [← hl]; rfl
  have h1 : fillTarget ((s.pages 0).contents + c) (.rel 0 4 c) { s with labels := [] }
      = writes 0 c (le32 (BitVec.ofInt 32 (-4))) { s with labels := [] } := by
    simp only [fillTarget, M.bind_def, M.get, e, e1, write32_run]
  rw [writes_run, if_neg (by simp [le32]; omega)] at h1
  rw [h0]
  simp only [fillLabels, fillLabel, fillTargets, M.bind_def, M.get, h1]
  exact ⟨_, rfl, rfl⟩

/-- A pending relocation that crosses the end of the page makes `finalize` panic and lose the label
    table. -/
theorem finalize_loses (s : JitMemory) {c : Nat} (hc : PAGE_SIZE < c + 4)
    (hp : ∀ p, (s.pages p).constants = [] ∧ (s.pages p).data = [])
    (hl : s.labels = [⟨some (0, c), [.rel 0 4 c]⟩]) :
    (finalize s).state.labels = [] := by
  let s1 : JitMemory := { s with pages := fun p => if p < 3 then openBlock (s.pages p) else s.pages p }
  let s2 : JitMemory := { s1 with pages := fun p => if p < 3 then closeBlock (s1.pages p) else s1.pages p }
  have h1 : forPages openBlock s = .ok () s1 := rfl
  have h2 : resolve_constants s1 = .ok () s1 ∧ resolve_data s1 = .ok () s1 :=
    resolve_nothing s1 (by intro p; by_cases h : p < 3 <;> simp [s1, h, openBlock, hp])
  have h3 : forPages closeBlock s1 = .ok () s2 := rfl
  obtain ⟨s', k1, k2⟩ := fill_loses (s := s2) hc hl
  have : finalize s = .panic .pageSizeOverflow s' := by
    simp only [finalize]
    rw [ok_bind h1, ok_bind h2.1, ok_bind h2.2, ok_bind h3]
    exact panic_bind k1
  rw [this]; exact k2

end Monoasm

namespace Monoasm
open Spec JitMemory

/-- A history that ends with a pending relocation slot that crosses the end of page 0. -/
def overflowHist (bs : List Byte) : List Op :=
  [.new .label, .emit bs, .bind_label 0, .save_reloc 0 4]

theorem overflow_finalize (base mem) (bs : List Byte) (hb : bs.length + 2 = PAGE_SIZE) :
    (finalize (reach base mem (overflowHist bs))).state.labels = [] := by
  have hs : ∀ s : JitMemory, s.page = 0 → s.labels = [LabelInfo.new] →
      (∀ p, (s.pages p).constants = [] ∧ (s.pages p).data = []) → (s.pages 0).counter = bs.length →
      (finalize (runCaught [.bind_label 0, .save_reloc 0 4] s)).state.labels = [] := by
    intro s h1 h2 h3 h4
    refine finalize_loses (c := (s.pages 0).counter) _ (by rw [h4]; omega) ?_ ?_
    all_goals
      simp only [runCaught, List.foldl, Op.run, JitMemory.bind_label, M.bind_def, MemPage.counterOf,
        modifyLabel, h1, h2, List.length_singleton, if_pos Nat.zero_lt_one, Res.state_ok, save_reloc, JitMemory.cur]
    · simp [h3]
    · simp [LabelInfo.new, List.modify]
  have e2 : (Op.emit bs).run (newState .label (JitMemory.new base mem))
      = .ok () (emitted (newState .label (JitMemory.new base mem)) 0 bs) :=
    emit_fits _ _ (by show 0 + bs.length ≤ _; omega)
  have e1 : ((Op.new .label).run (JitMemory.new base mem)).state = newState .label (JitMemory.new base mem) := by
    simp only [Op.run]; rw [ok_bind (newCall_run _ _)]; rfl
  simp only [reach, overflowHist]
  rw [runCaught_cons, e1, runCaught_cons, e2]
  apply hs
  · rfl
  · rfl
  · intro p; simp [emitted, newState_label, JitMemory.new, MemPage.new]
    split <;> simp
  · simp only [Res.state_ok, emitted, if_true, newState_label, JitMemory.new, MemPage.new,
      Nat.zero_add]

end Monoasm
