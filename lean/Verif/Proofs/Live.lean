import Verif.Proofs.Capacity
/-
  In a run without panics all recorded fields are inside their page.
-/

set_option linter.unusedSimpArgs false

namespace Monoasm
open JitMemory Spec

/-- All recorded fields are inside their page. -/
def AllLive (s : JitMemory) : Prop := ∀ l t, t ∈ targets s l → Live t

/-- A computation that, when it returns, leaves only such fields. -/
def Livens {α} (m : M α) : Prop := ∀ s a s', m s = .ok a s' → AllLive s → AllLive s'

section
variable {α β : Type}

theorem Livens.pure (a : α) : Livens (Pure.pure a : M α) := by
  intro s b s' h hs; cases h; exact hs

theorem Livens.bind {m : M α} {f : α → M β} (h1 : Livens m) (h2 : ∀ a, Livens (f a)) : Livens (m >>= f) := by
  intro s b s' h hs
  obtain ⟨a, s1, k1, k2⟩ := bind_ok h
  exact h2 a s1 b s' k2 (h1 s a s1 k1 hs)

theorem Livens.panic (e) : Livens (M.panic e : M α) := by intro s a s' h; cases h

theorem Livens.labels {m : M α} (h : ∀ s a s', m s = .ok a s' → s'.labels = s.labels) : Livens m := by
  intro s a s' h1 hs l t ht
  exact hs l t (by simpa only [targets, h s a s' h1] using ht)

theorem Livens.read {m : M α} (h : ∀ s a s', m s = .ok a s' → s' = s) : Livens m := .labels fun s a s' k => by rw [h s a s' k]

theorem Livens.cur : Livens JitMemory.cur := .read fun s a s' h => by cases h; rfl
theorem Livens.get : Livens M.get := .read fun s a s' h => by cases h; rfl

theorem Livens.emitRes (p bs) : Livens (emitRes p bs) := .labels fun s a s' h => by rw [(emitRes_ok h).2]; rfl
theorem Livens.writes (p pos bs) : Livens (writes p pos bs) := .labels fun s a s' h => by
  rw [writes_run] at h; split at h <;> cases h; rfl
theorem Livens.alignOp (k p) : Livens (alignOp k p) := .labels fun s a s' h => by rw [alignOp_run] at h; cases h; rfl

theorem Livens.congr {m m' : M α} (h : ∀ s, m s = m' s) (h' : Livens m') : Livens m := by
  rw [show m = m' from funext h]; exact h'

theorem Livens.emitb (p v) : Livens (MemPage.emitb p v) := .congr (emitb_run p v) (.emitRes _ _)
theorem Livens.emitw (p v) : Livens (MemPage.emitw p v) := .congr (emitw_run p v) (.emitRes _ _)
theorem Livens.emitl (p v) : Livens (MemPage.emitl p v) := .congr (emitl_run p v) (.emitRes _ _)
theorem Livens.emitq (p v) : Livens (MemPage.emitq p v) := .bind (.emitl _ _) fun _ => .emitl _ _
theorem Livens.write (p pos v) : Livens (MemPage.write p pos v) := .labels fun s a s' h => by
  simp only [MemPage.write] at h; split at h <;> cases h; rfl

theorem Livens.modifyLoc (l : DestLabel) (v : Option (Page × Nat)) : Livens (modifyLabel l fun i => { i with loc := v }) := by
  intro s a s' h hs l' t ht
  simp only [modifyLabel] at h
  split at h
  case isFalse => cases h
  rename_i hl
  cases h
  rw [targets_modify _ _ _ _ hl] at ht
  by_cases e : l' = l
  · rw [if_pos e] at ht
    exact hs l t (by simpa only [targets, List.getElem?_eq_getElem hl] using ht)
  · rw [if_neg e] at ht; exact hs l' t ht

theorem Livens.onPage (p : Page) (c : PageCall) : Livens (c.run p) := by
  cases c
  case poke => exact .write _ _ _
  case emitb => exact .emitb _ _
  case emitw => exact .emitw _ _
  case emitl => exact .emitl _ _
  case emitq => exact .emitq _ _
  case align_page => exact .alignOp 12 p
  case align16 => exact .alignOp 4 p
  case align8 => exact .alignOp 3 p
  case align4 => exact .alignOp 2 p

theorem Livens.checkPage (p) : Livens (checkPage p) := .read fun s a s' h => by
  simp only [Monoasm.checkPage] at h; split at h <;> cases h; rfl

theorem Livens.assert (b) : Livens (M.assert b) := .read fun s a s' h => by
  simp only [M.assert] at h; split at h <;> cases h; rfl

theorem Livens.get_label_address (l) : Livens (get_label_address l) := .read fun s a s' h => by
  have := get_label_address_state l s
  rw [h] at this
  exact this

theorem Livens.counterOf (p) : Livens (MemPage.counterOf p) := .read fun s a s' h => by cases h; rfl

theorem Livens.label : Livens JitMemory.label := by
  intro s a s' h hs l t ht
  cases h
  simp only [targets] at ht
  rcases Nat.lt_trichotomy l s.labels.length with hl | hl | hl
  · rw [List.getElem?_append_left hl] at ht; exact hs l t ht
  · subst hl; simp [LabelInfo.new] at ht
  · rw [List.getElem?_eq_none (by simp; omega)] at ht; cases ht

theorem Livens.modify {f : JitMemory → JitMemory} (h : ∀ s, (f s).labels = s.labels) : Livens (M.modify f) :=
  .labels fun s a s' k => by cases k; exact h s

theorem Livens.new (c : NewCall) : Livens c.run := by
  cases c
  case label => exact .label
  all_goals exact .bind .label fun _ => .bind (.modify fun _ => rfl) fun _ => .pure _

theorem Livens.item (it : Item) : Livens it.run := by
  cases it with
  | i8 v => exact .bind .cur fun _ => .emitb _ _
  | i16 v => exact .bind .cur fun _ => .emitw _ _
  | i32 v => exact .bind .cur fun _ => .emitl _ _
  | i64 v => exact .bind .cur fun _ => .emitq _ _
  | bind l => exact .bind .cur fun _ => .bind (.read fun s a s' h => by cases h; rfl) fun _ => .modifyLoc _ _
  | fail e => exact .panic e
  | rel l off =>
    intro s a s' h hs l' t ht
    obtain ⟨_, s1, h1, h2⟩ := bind_ok h
    have h1 : modifyLabel l (fun i => { i with target := i.target ++ [.rel s.page off (s.pages s.page).counter] }) s = .ok () s1 := h1
    simp only [modifyLabel] at h1
    split at h1
    case isFalse => cases h1
    rename_i hl
    cases h1
    have h2 : MemPage.emitl s.page 0 { s with labels := s.labels.modify l fun i =>
      { i with target := i.target ++ [.rel s.page off (s.pages s.page).counter] } } = .ok a s' := h2
    rw [emitl_run] at h2
    obtain ⟨hfit, rfl⟩ := emitRes_ok h2
    have ht : t ∈ targets { s with labels := s.labels.modify l fun i =>
      { i with target := i.target ++ [.rel s.page off (s.pages s.page).counter] } } l' := ht
    rw [targets_modify _ _ _ _ hl] at ht
    by_cases e : l' = l
    · rw [if_pos e] at ht
      simp only [List.mem_append, List.mem_singleton] at ht
      rcases ht with ht | rfl
      · exact hs l t (by simpa only [targets, List.getElem?_eq_getElem hl] using ht)
      · exact hfit
    · rw [if_neg e] at ht; exact hs l' t ht

theorem Livens.items (its : List Item) : Livens (runItems its) := by
  induction its with
  | nil => exact .pure ()
  | cons it its ih => exact .bind (.item it) fun _ => ih

theorem live_finalize {base : Nat} {s s' : JitMemory} (hi : Inv base s) (h : finalize s = .ok () s') (hs : AllLive s) : AllLive s' := by
  simp only [finalize] at h
  obtain ⟨_, sa, ha, h⟩ := bind_ok h
  obtain ⟨_, sr, hr, h⟩ := bind_ok h
  obtain ⟨_, sb, hb, h⟩ := bind_ok h
  obtain ⟨_, sc, hc, h⟩ := bind_ok h
  obtain ⟨_, sd, hd, he⟩ := bind_ok h
  have ma : Sim s sa := sim_forPages (f := openBlock) (fun _ => ⟨rfl, rfl, rfl, rfl⟩) ha
  have mc : Sim sb sc := sim_forPages (f := closeBlock) (fun _ => ⟨rfl, rfl, rfl, rfl⟩) hc
  have me : Sim sd s' := sim_forPages (f := topBlock) (fun _ => ⟨rfl, rfl, rfl, rfl⟩) he
  simp only [resolve_constants] at hr
  simp only [resolve_data] at hb
  obtain ⟨_, s1, h1, h2⟩ := bind_ok hr
  obtain ⟨_, s3, h3, h4⟩ := bind_ok hb
  have hia := ma.inv hi
  obtain ⟨d1, -⟩ := drain_constants hia (by decide) h1
  obtain ⟨d2, -⟩ := drain_constants d1.inv (by decide) h2
  obtain ⟨d3, -⟩ := drain_data d2.inv h3
  have p1 := constantsOf_placed (by decide) hia h1
  have p2 := constantsOf_placed (by decide) d1.inv h2
  have p3 := dataOf_placed d2.inv h3
  have p4 := dataOf_placed d3.inv h4
  intro l t ht
  rw [me.targets] at ht
  have : t ∈ targets sc l := by
    rw [(fill_relocs_run hd).2] at ht
    simp only [targets, List.getElem?_map] at ht ⊢
    cases e : sc.labels[l]? with
    | none => rw [e] at ht; exact ht
    | some i =>
      rw [e] at ht
      simp only [Option.map_some, LabelInfo.filled] at ht
      split at ht
      · cases ht
      · exact ht
  rw [mc.targets] at this
  rcases p4.live l t this with ht | ht
  · rcases p3.live l t ht with ht | ht
    · rcases p2.live l t ht with ht | ht
      · rcases p1.live l t ht with ht | ht
        · exact hs l t (by rw [← ma.targets]; exact ht)
        · exact ht
      · exact ht
    · exact ht
  · exact ht

theorem live_op {base : Nat} {op : Op} {s s' : JitMemory} (hi : Inv base s) (hr : ∀ l off, op ≠ .save_reloc l off)
    (h : op.run s = .ok () s') (hs : AllLive s) : AllLive s' := by
  have key : ∀ {its}, op.itemsOf = some its → AllLive s' := fun e => by
    rw [Op.run_items e] at h; exact Livens.items _ s () s' h hs
  cases op with
  | save_reloc l off => exact absurd rfl (hr l off)
  | emit bs => exact key rfl
  | bind_label l => exact key rfl
  | enc c => exact key rfl
  | inst i =>
    obtain ⟨its, e⟩ : ∃ its, (Op.inst i).itemsOf = some its := by
      simp only [Op.itemsOf]; split <;> exact ⟨_, rfl⟩
    exact key e
  | finalize => exact live_finalize hi h hs
  | select_page p =>
    have : Livens (select_page p) := .bind (.assert _) fun _ => .modify fun _ => rfl
    exact this s () s' h hs
  | cur c => exact Livens.bind .cur (fun p => .onPage p c) s () s' h hs
  | page p c =>
    have : Livens (Op.page p c).run := .bind (.checkPage p) fun _ => .onPage p c
    exact this s () s' h hs
  | new c => exact Livens.bind (.new c) (fun _ => .pure _) s () s' h hs
  | bind_label_with_page p l =>
    have : Livens (bind_label_with_page p l) := .bind (.checkPage p) fun _ => .bind (.counterOf p) fun _ => .modifyLoc _ _
    exact this s () s' h hs
  | apply_jmp_patch_address a d =>
    have : Livens (apply_jmp_patch_address a d) := .bind (.get_label_address d) fun _ => .modify fun _ => rfl
    exact this s () s' h hs
  | apply_jmp_patch p d =>
    have : Livens (apply_jmp_patch p d) :=
      .bind (.get_label_address p) fun _ => .bind (.get_label_address d) fun _ => .modify fun _ => rfl
    exact this s () s' h hs

theorem live_runOps {base : Nat} {h : List Op} {s s' : JitMemory} (hi : Inv base s) (hr : NoRaw h)
    (e : runOps h s = .ok () s') (hs : AllLive s) : AllLive s' ∧ Inv base s' := by
  induction h generalizing s with
  | nil => cases e; exact ⟨hs, hi⟩
  | cons op ops ih =>
    simp only [runOps] at e
    obtain ⟨_, s1, h1, h2⟩ := bind_ok e
    rw [noRaw_cons] at hr
    have := inv_op hi op
    rw [h1] at this
    exact ih this hr.2 h2 (live_op hi hr.1 h1 hs)

theorem live_new (base mem) : AllLive (JitMemory.new base mem) := by
  intro l t ht; simp [targets, JitMemory.new] at ht

theorem noFinalizePanic_runOps {h : List Op} {s s' : JitMemory} (e : runOps h s = .ok () s') : NoFinalizePanic s h := by
  induction h generalizing s with
  | nil => trivial
  | cons op ops ih =>
    simp only [runOps] at e
    obtain ⟨_, s1, h1, h2⟩ := bind_ok e
    refine ⟨?_, by rw [h1]; exact ih h2⟩
    rintro rfl
    exact ⟨s1, h1⟩

theorem keepsLabels_runOps {h : List Op} {s s' : JitMemory} (e : runOps h s = .ok () s') : KeepsLabels s h :=
  (noFinalizePanic_runOps e).keeps

end
end Monoasm
