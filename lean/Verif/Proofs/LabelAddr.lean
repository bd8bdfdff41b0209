import Verif.Proofs.History
/-
  Addresses of labels along histories.
-/

namespace Monoasm
open JitMemory Spec

theorem contents_pos {base s} (hi : Inv base s) (hb : 0 < base) (p) : 0 < (s.pages p).contents := by
  rw [hi.contents]; exact Nat.lt_of_lt_of_le hb (Nat.le_add_right _ _)

theorem hasAddress_of_loc {base s} (hi : Inv base s) (hb : 0 < base) {l p c} (h : s.locOf l = some (p, c)) :
    HasAddress s l (addrOf base p c) := by
  refine ⟨?_, ?_⟩
  · rw [get_label_address_eq h (contents_pos hi hb p), hi.contents]; rfl
  · rw [get_label_u64_eq h, hi.contents]; rfl

theorem noAddress_unbound {s : JitMemory} {l : Nat} (hl : l < s.labels.length) (h : s.locOf l = none) :
    NoAddress s l .noPositionBinding := by
  refine ⟨?_, ?_⟩
  · simp only [get_label_address]; refine panic_bind ?_; rw [get_label_pos_eq s l hl, h]
  · simp only [get_label_u64]; refine panic_bind ?_; rw [get_label_pos_eq s l hl, h]

theorem noAddress_unknown {s : JitMemory} {l : Nat} (hl : s.labels.length ≤ l) :
    NoAddress s l .indexOutOfBounds :=
  ⟨panic_bind (panic_bind (labelInfo_none hl)), panic_bind (panic_bind (labelInfo_none hl))⟩

/-- `bind_label` and `bind_label_with_page` -/
theorem bind_run {s : JitMemory} {l p : Nat} (hl : l < s.labels.length) :
    ∃ s', modifyLabel l (fun i => { i with loc := some (p, (s.pages p).counter) }) s = .ok () s'
      ∧ s'.locOf l = some (p, (s.pages p).counter) ∧ s'.labels.length = s.labels.length
      ∧ s'.pages = s.pages ∧ s'.mem = s.mem ∧ s'.page = s.page := by
  refine ⟨{ s with labels := s.labels.modify l fun i => { i with loc := some (p, (s.pages p).counter) } },
    by simp only [modifyLabel, if_pos hl], ?_, by simp, rfl, rfl, rfl⟩
  rw [locOf_modify]
  simp [hl]

/-- An existing label that is not pending does not become pending. -/
theorem op_pending {op : Op} {s} {l : Nat} (hf : op = .finalize → (finalize s).state.labels.length = s.labels.length)
    (hl : l < s.labels.length) (hp : ¬ Pending s l) : ¬ Pending (op.run s).state l := by
  by_cases hb : op.binds l
  · have h1 : ∀ c, op ≠ .new c := by rintro c rfl; exact hb
    have h2 : op ≠ .finalize := by rintro rfl; exact hb
    exact fun h => hp ((keeps_op (B := fun _ => True) h1 h2 (fun _ _ => trivial) s).toF.pending l h)
  · exact (op_loc hf hl hp hb).2

theorem pending_caught {h : List Op} {s} {l : Nat} (hf : KeepsLabels s h)
    (hl : l < s.labels.length) (hp : ¬ Pending s l) : ¬ Pending (runCaught h s) l := by
  induction h generalizing s with
  | nil => exact hp
  | cons op ops ih =>
    rw [runCaught_cons]
    exact ih hf.2 (by rw [op_len hf.1]; omega) (op_pending hf.1 hl hp)

/-- Labels of pending objects exist. -/
def PendLt (s : JitMemory) : Prop := ∀ l : Nat, Pending s l → l < s.labels.length

theorem pendLt_op {op : Op} {s} (hf : op = .finalize → (finalize s).state.labels.length = s.labels.length) (h : PendLt s) :
    PendLt (op.run s).state := by
  intro l hl
  rw [op_len hf]
  by_cases h1 : ∃ c, op = .new c
  · obtain ⟨c, rfl⟩ := h1
    simp only [Op.run, ok_bind (newCall_run c s), newState] at hl
    obtain ⟨p, d, hp⟩ := hl
    simp only [Pure.pure, M.pure, Res.state_ok] at hp
    simp only [countNew]
    split at hp
    · simp only [List.mem_append, Option.mem_toList] at hp
      rcases hp with (h' | h') | (h' | h')
      · have := h l ⟨p, d, .inl h'⟩; omega
      · cases hc : c.const <;> simp [hc] at h'; omega
      · have := h l ⟨p, d, .inr h'⟩; omega
      · cases hc : c.datum <;> simp [hc] at h'; omega
    · have := h l ⟨p, d, hp⟩; omega
  · refine Nat.lt_of_lt_of_le (h l ?_) (Nat.le_add_right _ _)
    by_cases h2 : op = .finalize
    · have e := hf h2
      subst h2
      exact (keepF_finalize_state e).pending l hl
    · exact (keeps_op (B := fun _ => True) (fun c e => h1 ⟨c, e⟩) h2 (fun _ _ => trivial) s).toF.pending l hl

theorem pendLt_caught {h : List Op} {s} (hf : KeepsLabels s h) (hp : PendLt s) :
    PendLt (runCaught h s) := by
  induction h generalizing s with
  | nil => exact hp
  | cons op ops ih => exact ih hf.2 (pendLt_op hf.1 hp)

theorem pendLt_reach {base mem h} (hf : KeepsLabels (JitMemory.new base mem) h) :
    PendLt (reach base mem h) :=
  pendLt_caught hf (by rintro l ⟨p, d, h⟩; simp [JitMemory.new, MemPage.new] at h)

/-- The label created by a `label()` call exists, and stays out of the pending lists; it stays
    unbound until a call binds it. -/
theorem label_reach {base mem} {h1 h2 : List Op}
    (hf : KeepsLabels (JitMemory.new base mem) (h1 ++ .new .label :: h2)) :
    countNew h1 < (reach base mem (h1 ++ .new .label :: h2)).labels.length
      ∧ ¬ Pending (reach base mem (h1 ++ .new .label :: h2)) (countNew h1)
      ∧ ((∀ op ∈ h2, ¬ op.binds (countNew h1)) →
        (reach base mem (h1 ++ .new .label :: h2)).locOf (countNew h1) = none) := by
  have hlen := len_reach hf
  obtain ⟨hf1, _, hf2⟩ := keepsLabels_append.1 hf
  have hl1 := len_reach hf1
  refine ⟨by rw [hlen, countNew_append]; simp [countNew], ?_⟩
  rw [reach, runCaught_append, runCaught_cons]
  have e : ((Op.new .label).run (runCaught h1 (JitMemory.new base mem))).state
      = newState .label (reach base mem h1) := by
    simp only [Op.run]; rw [ok_bind (newCall_run _ _)]; rfl
  rw [e] at hf2 ⊢
  have hlt : countNew h1 < (newState .label (reach base mem h1)).labels.length := by
    simp [newState, hl1]
  have hnp : ¬ Pending (newState .label (reach base mem h1)) (countNew h1) := by
    rw [newState_label]
    intro hp
    have := pendLt_reach hf1 (countNew h1) hp
    omega
  refine ⟨pending_caught hf2 hlt hnp, fun hb => ?_⟩
  rw [(loc_caught hf2 hlt hnp hb).1, JitMemory.locOf, ← hl1, newState_fresh]; rfl

/-- A freshly created label stays unbound as long as no call binds it and nothing is finalized. -/
theorem unplaced_reach {base mem} {h1 h2 : List Op} {c : NewCall}
    (hf : KeepsLabels (JitMemory.new base mem) (h1 ++ .new c :: h2))
    (hb : ∀ op ∈ h2, ¬ op.binds (countNew h1) ∧ op ≠ .finalize) :
    countNew h1 < (reach base mem (h1 ++ .new c :: h2)).labels.length
      ∧ (reach base mem (h1 ++ .new c :: h2)).locOf (countNew h1) = none := by
  have hlen := len_reach hf
  obtain ⟨hf1, _, hf2⟩ := keepsLabels_append.1 hf
  have hl1 := len_reach hf1
  refine ⟨by rw [hlen, countNew_append]; simp [countNew], ?_⟩
  rw [reach, runCaught_append, runCaught_cons]
  have e : ((Op.new c).run (runCaught h1 (JitMemory.new base mem))).state
      = newState c (reach base mem h1) := by
    simp only [Op.run]; rw [ok_bind (newCall_run _ _)]; rfl
  rw [e]
  have key : ∀ (h : List Op) (s : JitMemory), (∀ op ∈ h, ¬ op.binds (countNew h1) ∧ op ≠ .finalize) →
      countNew h1 < s.labels.length →
      (runCaught h s).locOf (countNew h1) = s.locOf (countNew h1) := by
    intro h
    induction h with
    | nil => intros; rfl
    | cons op ops ih =>
      intro s hb hl
      have hf : op = .finalize → (finalize s).state.labels.length = s.labels.length := fun e => absurd e (hb op (by simp)).2
      rw [runCaught_cons, ih _ (fun o ho => hb o (by simp [ho])) (by rw [op_len hf]; omega)]
      by_cases h1' : ∃ c, op = .new c
      · obtain ⟨c, rfl⟩ := h1'
        simp only [Op.run, ok_bind (newCall_run c s)]
        exact newState_loc c s (by omega)
      · exact (keeps_op (B := fun l' => l' ≠ countNew h1) (fun c e => h1' ⟨c, e⟩) (hb op (by simp)).2
          (fun l' h e => (hb op (by simp)).1 (e ▸ h)) s).loc _ (by simp)
  rw [key h2 _ hb (by simp [newState, hl1]), JitMemory.locOf, ← hl1, newState_fresh]; rfl

/-- A one-byte instruction, for examples. -/
theorem ret_run {s : JitMemory} (h : s.get_current + 1 ≤ PAGE_SIZE) :
    (Op.inst .Ret).run s = .ok () (emitted s s.page [0xc3]) := by
  show JitMemory.emitb 0xc3 s = _
  simp only [JitMemory.emitb, cur_bind, emitb_run, emitRes]
  exact if_pos h

theorem pending_congr {s s' : JitMemory} (h : s'.pages = s.pages) (l) : Pending s' l ↔ Pending s l := by
  simp only [Pending, h]

end Monoasm
