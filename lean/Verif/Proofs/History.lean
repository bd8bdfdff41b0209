import Verif.Proofs.Labels
/-
  Histories with caught panics.
-/

set_option linter.unusedSimpArgs false

namespace Monoasm
open JitMemory Spec

theorem runCaught_cons (op ops s) : runCaught (op :: ops) s = runCaught ops (op.run s).state := rfl
theorem runCaught_append (a b s) : runCaught (a ++ b) s = runCaught b (runCaught a s) := by
  simp [runCaught]

/-- A history that does not panic reaches the same state. -/
theorem runCaught_of_ok {h : List Op} {s s'} (hr : runOps h s = .ok () s') : runCaught h s = s' := by
  induction h generalizing s with
  | nil => cases hr; rfl
  | cons op ops ih =>
    simp only [runOps] at hr
    obtain ⟨_, s1, h1, h2⟩ := bind_ok hr
    rw [runCaught_cons, h1, Res.state_ok, ih h2]

theorem inv_new (base mem) : Inv base (JitMemory.new base mem) :=
  ⟨fun _ => rfl, fun _ => Nat.zero_le _, (by show 0 < 2; decide), by simp [JitMemory.new], by simp [JitMemory.new]⟩

theorem patchAddress_state {base s} (h : Inv base s) (a d) :
    Inv base (apply_jmp_patch_address a d s).state := by
  have h0 := get_label_address_state d s
  simp only [apply_jmp_patch_address, M.bind_def]
  cases e : get_label_address d s with
  | panic er s1 => rw [e] at h0; simp only [Res.state_panic] at h0 ⊢; rw [h0]; exact h
  | ok x s1 =>
    rw [e] at h0; simp only [Res.state_ok] at h0
    subst h0
    exact h.putMem _

theorem patch_state {base s} (h : Inv base s) (p d) : Inv base (apply_jmp_patch p d s).state := by
  have h0 := get_label_address_state p s
  simp only [apply_jmp_patch, M.bind_def]
  cases e : get_label_address p s with
  | panic er s1 => rw [e] at h0; simp only [Res.state_panic] at h0 ⊢; rw [h0]; exact h
  | ok x s1 =>
    rw [e] at h0; simp only [Res.state_ok] at h0
    subst h0
    exact patchAddress_state h _ _

theorem select_page_state {base s} (h : Inv base s) (p) : Inv base (select_page p s).state := by
  simp only [select_page, M.bind_def, M.assert]
  by_cases hp : p < 2
  · simp only [hp, decide_true, if_true, M.modify, Res.state_ok]
    exact ⟨h.contents, h.counter, hp, h.loc, h.tgt⟩
  · simp [hp, h]

theorem inv_op {base s} (h : Inv base s) (op : Op) : Inv base (op.run s).state := by
  by_cases hs : ∃ p, op = .select_page p
  · obtain ⟨p, rfl⟩ := hs; exact select_page_state h p
  by_cases hp : op.isPatch
  · cases op <;> simp only [Op.isPatch] at hp
    · exact patch_state h _ _
    · exact patchAddress_state h _ _
  · exact (safe_op (ro := False) (ps := fun _ => True) 0 (fun p e => hs ⟨p, e⟩) hp
      (fun _ => .inr id) (fun _ => .inr id) (fun _ _ => trivial) s h trivial).1.inv

theorem inv_caught {base s} (h : Inv base s) (ops : List Op) : Inv base (runCaught ops s) := by
  induction ops generalizing s with
  | nil => exact h
  | cons op ops ih => exact ih (inv_op h op)

theorem inv_reach (base mem h) : Inv base (reach base mem h) := inv_caught (inv_new base mem) h

/-! ### Label table along histories -/

theorem noFinalizePanic_append {a b s} :
    NoFinalizePanic s (a ++ b) ↔ NoFinalizePanic s a ∧ NoFinalizePanic (runCaught a s) b := by
  induction a generalizing s with
  | nil => simp [NoFinalizePanic, runCaught]
  | cons op ops ih => simp only [List.cons_append, NoFinalizePanic, ih, runCaught_cons, and_assoc]

theorem keepsLabels_append {a b s} :
    KeepsLabels s (a ++ b) ↔ KeepsLabels s a ∧ KeepsLabels (runCaught a s) b := by
  induction a generalizing s with
  | nil => simp [KeepsLabels, runCaught]
  | cons op ops ih => simp only [List.cons_append, KeepsLabels, ih, runCaught_cons, and_assoc]

theorem finalize_keeps {s s'} (h : finalize s = .ok () s') : (finalize s).state.labels.length = s.labels.length := by
  rw [h]; exact (keepF_finalize h).len

theorem _root_.Spec.NoFinalizePanic.keeps {s h} (hf : NoFinalizePanic s h) : KeepsLabels s h := by
  induction h generalizing s with
  | nil => trivial
  | cons op ops ih =>
    refine ⟨fun e => ?_, ih hf.2⟩
    obtain ⟨s', h⟩ := hf.1 e
    exact finalize_keeps h

theorem countNew_append (a b) : countNew (a ++ b) = countNew a + countNew b := by
  induction a with
  | nil => simp [countNew]
  | cons op ops ih => cases op <;> simp [countNew, ih] <;> omega

theorem op_len {op : Op} {s} (hf : op = .finalize → (finalize s).state.labels.length = s.labels.length) :
    (op.run s).state.labels.length = s.labels.length + countNew [op] := by
  by_cases h1 : ∃ c, op = .new c
  · obtain ⟨c, rfl⟩ := h1
    simp only [Op.run, ok_bind (newCall_run c s)]
    simp [newState, countNew, M.pure_def, Pure.pure, M.pure]
  by_cases h2 : op = .finalize
  · have e := hf h2
    subst h2
    exact e
  · have := (keeps_op (B := fun _ => True) (fun c e => h1 ⟨c, e⟩) h2 (fun _ _ => trivial) s).len
    rw [this]
    cases op <;> simp [countNew] at h1 ⊢

theorem len_caught {h : List Op} {s} (hf : KeepsLabels s h) :
    (runCaught h s).labels.length = s.labels.length + countNew h := by
  induction h generalizing s with
  | nil => simp [runCaught, countNew]
  | cons op ops ih =>
    rw [runCaught_cons, ih hf.2, op_len hf.1, show op :: ops = [op] ++ ops from rfl, countNew_append]
    omega

theorem len_reach {base mem h} (hf : KeepsLabels (JitMemory.new base mem) h) :
    (reach base mem h).labels.length = countNew h := by
  rw [reach, len_caught hf]; simp [JitMemory.new]

/-- A label that exists, is not the label of a pending constant, and is not bound by the call keeps
    its position. -/
theorem op_loc {op : Op} {s} {l : Nat} (hf : op = .finalize → (finalize s).state.labels.length = s.labels.length)
    (hl : l < s.labels.length) (hp : ¬ Pending s l) (hb : ¬ op.binds l) :
    (op.run s).state.locOf l = s.locOf l ∧ ¬ Pending (op.run s).state l := by
  by_cases h1 : ∃ c, op = .new c
  · obtain ⟨c, rfl⟩ := h1
    simp only [Op.run, ok_bind (newCall_run c s)]
    refine ⟨newState_loc c s (by omega), ?_⟩
    rintro ⟨p, d, hp'⟩
    apply hp
    refine ⟨p, d, ?_⟩
    simp only [newState, M.pure_def, Pure.pure, M.pure, Res.state_ok] at hp'
    have hne : l ≠ s.labels.length := by omega
    split at hp'
    · simp only [List.mem_append, Option.mem_toList] at hp'
      rcases hp' with (h | h) | (h | h)
      · exact .inl h
      · cases hc : c.const <;> simp [hc] at h; omega
      · exact .inr h
      · cases hc : c.datum <;> simp [hc] at h; omega
    · exact hp'
  by_cases h2 : op = .finalize
  · have e := hf h2
    subst h2
    have hk := keepF_finalize_state e
    exact ⟨hk.loc l hp, fun h => hp (hk.pending l h)⟩
  · have hk := keeps_op (B := fun l' => l' ≠ l) (fun c e => h1 ⟨c, e⟩) h2 (fun l' h e => hb (e ▸ h)) s
    exact ⟨hk.loc l (by simp), fun h => hp (hk.toF.pending l h)⟩

theorem loc_caught {h : List Op} {s} {l : Nat} (hf : KeepsLabels s h)
    (hl : l < s.labels.length) (hp : ¬ Pending s l) (hb : ∀ op ∈ h, ¬ op.binds l) :
    (runCaught h s).locOf l = s.locOf l ∧ ¬ Pending (runCaught h s) l := by
  induction h generalizing s with
  | nil => exact ⟨rfl, hp⟩
  | cons op ops ih =>
    have h1 := op_loc hf.1 hl hp (hb op (by simp))
    have h2 := ih hf.2 (by rw [op_len hf.1]; omega) h1.2 (fun o ho => hb o (by simp [ho]))
    rw [runCaught_cons]
    exact ⟨h2.1.trans h1.1, h2.2⟩

end Monoasm

namespace Monoasm
open JitMemory Spec

theorem page_disjoint {base : Nat} {p q : Page} {a : Nat} (h : inPage base p a) (h' : inPage base q a) :
    p = q := by
  have e := PAGE_SIZE_eq
  simp only [inPage, Page] at h h' p q ⊢
  rw [e] at h h'
  omega

theorem fill_relocs_len (s) : (fill_relocs s).state.labels.length ≤ s.labels.length := by
  cases e : fill_relocs s with
  | ok a s' => cases a; exact Nat.le_of_eq (keepF_fill_relocs e).len
  | panic er s' =>
    have : s'.labels = [] := by
      simp only [fill_relocs, M.bind_def, M.get, M.modify] at e
      have hk := Keeps.fillLabels (B := fun _ => True) s.labels { s with labels := [] }
      cases e2 : fillLabels s.labels { s with labels := [] } with
      | ok rs s2 => rw [e2] at e; cases e
      | panic er2 s2 =>
        rw [e2] at e hk; cases e
        exact List.eq_nil_of_length_eq_zero hk.len
    simp [this]

theorem finalize_len (s) : (finalize s).state.labels.length ≤ s.labels.length := by
  have step : ∀ {α β} (m : M α) (f : α → M β) (s), (m s).state.labels.length ≤ s.labels.length →
      (∀ a s', m s = .ok a s' → (f a s').state.labels.length ≤ s'.labels.length) →
      ((m >>= f) s).state.labels.length ≤ s.labels.length := by
    intro α β m f s h1 h2
    rw [M.bind_def]
    cases e : m s with
    | ok a s' => rw [e] at h1; exact Nat.le_trans (h2 a s' e) h1
    | panic er s' => rw [e] at h1; exact h1
  have kF : ∀ {α} {m : M α}, KeepsF m → ∀ s, (m s).state.labels.length ≤ s.labels.length :=
    fun h s => Nat.le_of_eq (h s).len
  refine step _ _ _ (kF (keepsF_forPages _ fun _ => ⟨rfl, rfl⟩) _) fun _ _ _ => ?_
  refine step _ _ _ (kF (.bind (keepF_resolveConstantsOf 0) fun _ => keepF_resolveConstantsOf 1) _) fun _ _ _ => ?_
  refine step _ _ _ (kF (.bind (keepF_resolveDataOf 0) fun _ => keepF_resolveDataOf 1) _) fun _ _ _ => ?_
  refine step _ _ _ (kF (keepsF_forPages _ fun _ => ⟨rfl, rfl⟩) _) fun _ _ _ => ?_
  refine step _ _ _ (fill_relocs_len _) fun _ _ _ => ?_
  exact kF (keepsF_forPages _ fun _ => ⟨rfl, rfl⟩) _

/-- The label table never holds more entries than labels were created. -/
theorem len_caught_le (h : List Op) (s) : (runCaught h s).labels.length ≤ s.labels.length + countNew h := by
  induction h generalizing s with
  | nil => simp [runCaught, countNew]
  | cons op ops ih =>
    rw [runCaught_cons, show op :: ops = [op] ++ ops from rfl, countNew_append]
    have h1 := ih (op.run s).state
    have h2 : (op.run s).state.labels.length ≤ s.labels.length + countNew [op] := by
      by_cases hf : op = .finalize
      · subst hf; exact Nat.le_trans (finalize_len s) (Nat.le_add_right _ _)
      · exact Nat.le_of_eq (op_len fun h => absurd h hf)
    omega

theorem len_reach_le (base mem h) : (reach base mem h).labels.length ≤ countNew h := by
  have := len_caught_le h (JitMemory.new base mem)
  simpa [JitMemory.new, reach] using this

theorem labelInfo_none {s : JitMemory} {l : Nat} (h : s.labels.length ≤ l) :
    labelInfo l s = .panic .indexOutOfBounds s := by
  simp [labelInfo, List.getElem?_eq_none h]

theorem modifyLabel_none {s : JitMemory} {l : Nat} {f} (h : s.labels.length ≤ l) :
    modifyLabel l f s = .panic .indexOutOfBounds s := by
  have : ¬ l < s.labels.length := by omega
  simp [modifyLabel, this]

theorem get_label_pos_eq (s : JitMemory) (l : Nat) (hl : l < s.labels.length) :
    get_label_pos l s = match s.locOf l with
      | some pc => .ok pc s
      | none => .panic .noPositionBinding s := by
  simp only [get_label_pos, M.bind_def, labelInfo, JitMemory.locOf]
  have : s.labels[l]? = some s.labels[l] := by simp [hl]
  rw [this]
  cases e : s.labels[l].loc <;> simp [e] <;> rfl

theorem get_label_u64_eq {s : JitMemory} {l : Nat} {p c} (h : s.locOf l = some (p, c)) :
    get_label_u64 l s = .ok ((s.pages p).contents + c) s := by
  have hl : l < s.labels.length := by
    apply Classical.byContradiction
    intro hn
    rw [JitMemory.locOf, List.getElem?_eq_none (by omega)] at h
    simp at h
  simp only [get_label_u64, M.bind_def, get_label_pos_eq s l hl, h, M.get]
  rfl

theorem get_label_address_eq {s : JitMemory} {l : Nat} {p c} (h : s.locOf l = some (p, c))
    (hb : 0 < (s.pages p).contents) :
    get_label_address l s = .ok ((s.pages p).contents + c) s := by
  have hl : l < s.labels.length := by
    apply Classical.byContradiction
    intro hn
    rw [JitMemory.locOf, List.getElem?_eq_none (by omega)] at h
    simp at h
  simp only [get_label_address, M.bind_def, get_label_pos_eq s l hl, h, M.get, codePtrFrom]
  rw [if_neg (by omega)]; rfl

end Monoasm

namespace Monoasm
open JitMemory Spec

theorem page_cases {p : Nat} (h : p < 3) : p = 0 ∨ p = 1 ∨ p = 2 := by omega

theorem mem_op {base s} (hi : Inv base s) {op : Op} (hp : ¬ op.isPatch)
    {a : Nat} (ha : ∀ p, p < 3 → ¬ inPage base p a) : (op.run s).state.mem a = s.mem a := by
  by_cases hs : ∃ p, op = .select_page p
  · obtain ⟨p, rfl⟩ := hs
    simp only [Op.run, JitMemory.select_page, M.bind_def, M.assert]
    by_cases h2 : p < 2 <;> simp [h2, M.modify]
  · exact (safe_op (ro := False) (ps := fun _ => True) 0 (fun p e => hs ⟨p, e⟩) hp
      (fun _ => .inr id) (fun _ => .inr id) (fun _ _ => trivial) _ hi trivial).1.mem a
        fun p h3 _ => ha p h3

theorem mem_caught {base s} (hi : Inv base s) {h : List Op} (hp : ∀ op ∈ h, ¬ op.isPatch)
    {a : Nat} (ha : ∀ p, p < 3 → ¬ inPage base p a) : (runCaught h s).mem a = s.mem a := by
  induction h generalizing s with
  | nil => rfl
  | cons op ops ih =>
    rw [runCaught_cons, ih (inv_op hi op) fun o ho => hp o (by simp [ho])]
    exact mem_op hi (hp op (by simp)) ha

end Monoasm
