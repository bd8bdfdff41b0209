import Verif.Proofs.Frame
/-
  `finalize` when there is nothing to do.
-/

set_option linter.unusedSimpArgs false

namespace Monoasm
open JitMemory Spec

theorem fillLabels_idle {is : List LabelInfo} (h : ∀ i ∈ is, i.loc = none ∨ i.target = []) (s : JitMemory) :
    fillLabels is s = .ok is s := by
  induction is with
  | nil => rfl
  | cons i is ih =>
    have h1 : fillLabel i s = .ok i s := by
      simp only [fillLabel]
      cases e : i.loc with
      | none => rfl
      | some pc =>
        have ht : i.target = [] := by
          rcases h i (by simp) with h | h
          · rw [e] at h; cases h
          · exact h
        simp only [ht]
        obtain ⟨_, _⟩ := i
        simp only at ht e; subst ht; subst e
        rfl
    simp only [fillLabels]
    rw [ok_bind h1, ok_bind (ih fun j hj => h j (by simp [hj]))]
    rfl

theorem fill_relocs_idle {s : JitMemory} (h : ∀ i ∈ s.labels, i.loc = none ∨ i.target = []) :
    fill_relocs s = .ok () s := by
  simp only [fill_relocs]
  rw [ok_bind (a := s) (s1 := s) (by rfl)]
  rw [ok_bind (a := ()) (s1 := { s with labels := [] }) (by rfl)]
  rw [ok_bind (fillLabels_idle h _)]
  rfl

theorem updPage_same {s : JitMemory} {p} {f : MemPage → MemPage} (h : f (s.pages p) = s.pages p) :
    s.updPage p f = s := by
  obtain ⟨a, b, c, d⟩ := s
  simp only [JitMemory.updPage, JitMemory.mk.injEq, true_and, and_true]
  funext q
  simp only at h
  split
  · rename_i e; subst e; exact h
  · rfl

theorem resolveConstantsOf_idle {s : JitMemory} {p} (h : (s.pages p).constants = []) :
    resolveConstantsOf p s = .ok () s := by
  simp only [resolveConstantsOf]
  rw [ok_bind (a := s) (s1 := s) (by rfl)]
  have e : s.updPage p (fun pg => { pg with constants := [] }) = s := updPage_same (by rw [← h])
  have hm : M.modify (fun s => s.updPage p fun pg => { pg with constants := [] }) s = .ok () s := congrArg (Res.ok ()) e
  refine (ok_bind hm).trans ?_
  rw [h]
  rfl

theorem resolveDataOf_idle {s : JitMemory} {p} (h : (s.pages p).data = []) :
    resolveDataOf p s = .ok () s := by
  simp only [resolveDataOf]
  rw [ok_bind (a := s) (s1 := s) (by rfl)]
  have e : s.updPage p (fun pg => { pg with data := [] }) = s := updPage_same (by rw [← h])
  have hm : M.modify (fun s => s.updPage p fun pg => { pg with data := [] }) s = .ok () s := congrArg (Res.ok ()) e
  refine (ok_bind hm).trans ?_
  rw [h]
  rfl

/-- State after such a `finalize`. -/
def idled (s : JitMemory) : JitMemory :=
  { s with pages := fun p => if p < 3 then
      { s.pages p with
        code_len := (s.pages p).counter
        code_block_top := (s.pages p).counter
        code_block := (s.pages p).code_block ++ [((s.pages p).code_block_top, (s.pages p).counter, (s.pages p).counter)] }
      else s.pages p }

theorem finalize_idle {s : JitMemory} (h : ∀ i ∈ s.labels, i.loc = none ∨ i.target = [])
    (hl : ∀ p, p = 0 ∨ p = 1 → (s.pages p).constants = [] ∧ (s.pages p).data = []) :
    finalize s = .ok () (idled s) := by
  simp only [finalize]
  rw [ok_bind (a := ()) (s1 := { s with pages := fun p => if p < 3 then openBlock (s.pages p) else s.pages p }) (by rfl)]
  have hc : ∀ p, p = 0 ∨ p = 1 →
      (({ s with pages := fun p => if p < 3 then openBlock (s.pages p) else s.pages p } : JitMemory).pages p).constants = []
      ∧ (({ s with pages := fun p => if p < 3 then openBlock (s.pages p) else s.pages p } : JitMemory).pages p).data = [] := by
    intro p hp
    simp only
    split
    · exact hl p hp
    · exact hl p hp
  rw [ok_bind (a := ()) (s1 := { s with pages := fun p => if p < 3 then openBlock (s.pages p) else s.pages p }) (by
    simp only [resolve_constants]
    rw [ok_bind (resolveConstantsOf_idle (hc 0 (.inl rfl)).1), resolveConstantsOf_idle (hc 1 (.inr rfl)).1])]
  rw [ok_bind (a := ()) (s1 := { s with pages := fun p => if p < 3 then openBlock (s.pages p) else s.pages p }) (by
    simp only [resolve_data]
    rw [ok_bind (resolveDataOf_idle (hc 0 (.inl rfl)).2), resolveDataOf_idle (hc 1 (.inr rfl)).2])]
  rw [ok_bind (a := ()) (s1 := { s with pages := fun p => if p < 3 then closeBlock (openBlock (s.pages p)) else s.pages p }) (by
    simp only [forPages, M.modify, Res.ok.injEq, JitMemory.mk.injEq, true_and, and_true]
    funext p; split <;> rfl)]
  rw [ok_bind (a := ()) (fill_relocs_idle (by exact h))]
  simp only [forPages, M.modify, idled, Res.ok.injEq, JitMemory.mk.injEq, true_and, and_true]
  funext p
  split
  · simp [topBlock, closeBlock, openBlock, modify_last]
  · rfl

theorem FinalRun.idle {base s s'} (f : FinalRun base s s') : finalize s' = .ok () (idled s') := by
  refine finalize_idle ?_ ?_
  · intro i hi
    obtain ⟨l, hl⟩ := List.mem_iff_getElem?.1 hi
    cases e : i.loc with
    | none => exact .inl rfl
    | some pc =>
      right
      have h1 : s'.locOf l = some pc := by simp [JitMemory.locOf, hl, e]
      have h2 := f.bound l (by rw [h1]; simp)
      simpa [targets, hl] using h2
  · intro p hp
    rw [f.pages p (by rcases hp with rfl | rfl <;> decide)]
    simp [hp]

end Monoasm
