import Verif.Proofs.Safe
/-
  `finalize` and the patching functions preserve the invariant of all histories.
-/

set_option linter.unusedSimpArgs false

namespace Monoasm
open JitMemory Spec

section
variable {base : Nat} {ro : Prop} {ps : Page → Prop} {α β : Type}

theorem safe_updPage {p} {f : MemPage → MemPage} (hps : ps p)
    (hf : ∀ pg : MemPage, (f pg).contents = pg.contents ∧ (f pg).counter = pg.counter) :
    Safe base ro ps (M.modify fun s => s.updPage p f) := by
  intro s h hp
  refine ⟨⟨h.updPage hf, rfl, fun _ _ => rfl, fun q hq => ?_⟩, fun _ _ => by simp [M.modify]⟩
  have : q ≠ p := fun e => hq (e ▸ hps)
  simp [M.modify, JitMemory.updPage, this]

theorem safe_forPages {f : MemPage → MemPage} (hps : ∀ p, ps p)
    (hf : ∀ pg : MemPage, (f pg).contents = pg.contents ∧ (f pg).counter = pg.counter) :
    Safe base ro ps (forPages f) := by
  intro s h hp
  refine ⟨⟨⟨fun q => ?_, fun q => ?_, h.page, h.loc, h.tgt⟩, rfl, fun _ _ => rfl,
    fun q hq => absurd (hps q) hq⟩, fun _ _ => by simp [forPages, M.modify]⟩
  · simp only [forPages, M.modify, Res.state_ok]; split <;> simp [hf, h.contents]
  · simp only [forPages, M.modify, Res.state_ok]; split <;> simp [hf, h.counter]

theorem safe_emitZeros {p} (n) (hp : p < 3) (hps : ps p) : Safe base ro ps (emitZeros p n) := by
  induction n with
  | zero => exact .pure ()
  | succ n ih => exact .bind (safe_emitb 0 hp hps) fun _ => ih

theorem safe_resolveOne {p} (d l) (hp : p < 3) (hps : ps p) : Safe base ro ps (resolveOne p d l) := by
  cases d with
  | u64 v =>
    exact .bind (safe_alignOp 4 (by omega) hps) fun _ =>
      .bind (safe_bind_label_with_page p l) fun _ => safe_emitq v hp hps
  | u32 v =>
    exact .bind (safe_alignOp 2 (by omega) hps) fun _ =>
      .bind (safe_bind_label_with_page p l) fun _ => safe_emitl v hp hps
  | bytes n =>
    exact .bind (safe_alignOp 4 (by omega) hps) fun _ =>
      .bind (safe_bind_label_with_page p l) fun _ => safe_emitZeros n hp hps
  | absAddress lbl =>
    exact .bind (safe_alignOp 3 (by omega) hps) fun _ =>
      .bind (safe_bind_label_with_page p l) fun _ =>
      .bind (safe_save_absolute_reloc p lbl hp) fun _ => safe_emitq 0 hp hps
  | align8 =>
    exact .bind (safe_alignOp 3 (by omega) hps) fun _ => safe_bind_label_with_page p l

theorem safe_resolveList {p} (cs) (hp : p < 3) (hps : ps p) : Safe base ro ps (resolveList p cs) := by
  induction cs with
  | nil => exact .pure ()
  | cons c cs ih => exact .bind (safe_resolveOne _ _ hp hps) fun _ => ih

theorem safe_resolve_constants (hps : ∀ p, ps p) : Safe base ro ps resolve_constants :=
  .bind (.bind .get fun _ => .bind (safe_updPage (hps _) fun _ => ⟨rfl, rfl⟩) fun _ =>
      safe_resolveList _ (by decide) (hps _)) fun _ =>
    .bind .get fun _ => .bind (safe_updPage (hps _) fun _ => ⟨rfl, rfl⟩) fun _ =>
      safe_resolveList _ (by decide) (hps _)

theorem safe_resolve_data (hps : ∀ p, ps p) : Safe base ro ps resolve_data :=
  .bind (.bind .get fun _ => .bind (safe_updPage (hps _) fun _ => ⟨rfl, rfl⟩) fun _ =>
      safe_resolveList _ (by decide) (hps _)) fun _ =>
    .bind .get fun _ => .bind (safe_updPage (hps _) fun _ => ⟨rfl, rfl⟩) fun _ =>
      safe_resolveList _ (by decide) (hps _)

/-! ### Relocation -/

/-- The label entry refers to positions inside the pages. -/
def InfoOk (i : LabelInfo) : Prop :=
  (∀ p c, i.loc = some (p, c) → p < 3 ∧ c ≤ PAGE_SIZE)
    ∧ ∀ t ∈ i.target, t.page < 3 ∧ t.pos ≤ PAGE_SIZE

/-- Label entry after `fill_relocs`. -/
def LabelInfo.filled (i : LabelInfo) : LabelInfo :=
  match i.loc with
  | some _ => { i with target := [] }
  | none => i

theorem page_mul {p : Page} (h : p < 3) : PAGE_SIZE * p ≤ 2 * PAGE_SIZE := by
  have : p ≤ 2 := Nat.le_of_lt_succ h
  rw [Nat.mul_comm]; exact Nat.mul_le_mul_right _ this

theorem safe_fillTarget (src : Nat) (hps : ∀ p, ps p) (hsrc : base ≤ src ∧ src ≤ base + 3 * PAGE_SIZE)
    (t : TargetType) (ht : t.page < 3 ∧ t.pos ≤ PAGE_SIZE) : Safe base ro ps (fillTarget src t) := by
  cases t with
  | abs p pos => exact safe_write64 _ _ ht.1 (hps _)
  | rel p off pos =>
    refine Safe.of_state fun s h _ => ⟨_, ok_bind (by rfl), ?_⟩
    have hd := page_mul (show p < 3 from ht.1)
    have hp := ht.2
    simp only [TargetType.pos] at hp
    have ho : off.toNat < 256 := off.isLt
    have hc := h.contents p
    rw [PAGE_SIZE_eq] at *
    simp only [i32TryFromInt]
    rw [if_pos (by omega)]
    exact safe_write32 _ _ ht.1 (hps _)

theorem safe_fillTargets (src : Nat) (hps : ∀ p, ps p) (hsrc : base ≤ src ∧ src ≤ base + 3 * PAGE_SIZE)
    (ts : List TargetType) (ht : ∀ t ∈ ts, t.page < 3 ∧ t.pos ≤ PAGE_SIZE) :
    Safe base ro ps (fillTargets src ts) := by
  induction ts with
  | nil => exact .pure ()
  | cons t ts ih =>
    exact .bind (safe_fillTarget src hps hsrc t (ht t (by simp))) fun _ =>
      ih fun t' h' => ht t' (by simp [h'])

theorem safe_fillLabel (hps : ∀ p, ps p) (i : LabelInfo) (hi : InfoOk i) : Safe base ro ps (fillLabel i) := by
  simp only [fillLabel]
  split
  · rename_i p c e
    refine Safe.of_state fun s h _ => ⟨_, ok_bind (by rfl), ?_⟩
    refine .bind (safe_fillTargets _ hps ?_ _ hi.2) fun _ => .pure _
    have h1 := hi.1 p c e
    have h2 := h.contents p
    have hd := page_mul h1.1
    omega
  · exact .pure _

theorem safe_fillLabels (hps : ∀ p, ps p) (is : List LabelInfo) (hi : ∀ i ∈ is, InfoOk i) :
    Safe base ro ps (fillLabels is) := by
  induction is with
  | nil => exact .pure _
  | cons i is ih =>
    exact .bind (safe_fillLabel hps i (hi i (by simp))) fun _ =>
      .bind (ih fun j hj => hi j (by simp [hj])) fun _ => .pure _

theorem fillLabel_ok {i r s s'} (h : fillLabel i s = .ok r s') : r = i.filled := by
  simp only [fillLabel] at h
  cases e : i.loc with
  | some pc =>
    rw [e] at h
    obtain ⟨_, s1, h1, h2⟩ := bind_ok h
    obtain ⟨_, s2, h3, h4⟩ := bind_ok h2
    have := (pure_ok h4).1
    rw [← this, LabelInfo.filled, e]
  | none =>
    rw [e] at h
    have := (pure_ok h).1
    rw [← this, LabelInfo.filled, e]

theorem fillLabels_ok {is rs s s'} (h : fillLabels is s = .ok rs s') : rs = is.map LabelInfo.filled := by
  induction is generalizing rs s s' with
  | nil => exact ((pure_ok h).1).symm
  | cons i is ih =>
    simp only [fillLabels] at h
    obtain ⟨r, s1, h1, h2⟩ := bind_ok h
    obtain ⟨rs', s2, h3, h4⟩ := bind_ok h2
    rw [← (pure_ok h4).1, fillLabel_ok h1, ih h3]; rfl

theorem infoOk_of_inv {s} (h : Inv base s) : ∀ i ∈ s.labels, InfoOk i := by
  intro i hi
  obtain ⟨l, hl⟩ := List.mem_iff_getElem?.1 hi
  exact ⟨h.loc l i hl, h.tgt l i hl⟩

theorem InfoOk.filled {i} (h : InfoOk i) : InfoOk i.filled := by
  simp only [LabelInfo.filled]
  split
  · exact ⟨h.1, by simp⟩
  · exact h

theorem Inv.setLabels {s} (h : Inv base s) {ls} (hl : ∀ i ∈ ls, InfoOk i) :
    Inv base { s with labels := ls } :=
  ⟨h.contents, h.counter, h.page,
    fun _ i hi => (hl i (List.mem_of_getElem? hi)).1, fun _ i hi => (hl i (List.mem_of_getElem? hi)).2⟩

theorem safe_setLabels {ls : List LabelInfo} (hl : ∀ i ∈ ls, InfoOk i) :
    Safe base ro ps (M.modify fun s => { s with labels := ls }) :=
  fun s h _ => ⟨⟨h.setLabels hl, rfl, fun _ _ => rfl, fun _ _ => rfl⟩, fun _ _ => by simp [M.modify]⟩

/-- Bind where the continuation is only reached with results satisfying `P`. -/
theorem Safe.bindP {m : M α} {f : α → M β} {P : α → Prop} (hm : Safe base ro ps m)
    (hP : ∀ s a s', m s = .ok a s' → P a)
    (hf : ∀ a, P a → Safe base ro ps (f a)) : Safe base ro ps (m >>= f) := by
  intro s h hp
  have h1 := hm s h hp
  rw [M.bind_def]
  cases e : m s with
  | ok a s1 =>
    rw [e] at h1
    have h2 := hf a (hP s a s1 e) s1 h1.1.inv (by have := h1.1.page; simp at this; rw [this]; exact hp)
    exact ⟨h1.1.trans h2.1, h2.2⟩
  | panic er s1 =>
    rw [e] at h1
    refine ⟨h1.1, fun r s' he => h1.2 r s' ?_⟩
    cases he; rfl

theorem safe_fill_relocs (hps : ∀ p, ps p) : Safe base ro ps fill_relocs := by
  refine Safe.of_state fun s h _ => ⟨_, ok_bind (by rfl), ?_⟩
  have hok := infoOk_of_inv h
  refine .bind (safe_setLabels (by simp)) fun _ => ?_
  refine .bindP (P := fun rs => ∀ i ∈ rs, InfoOk i) (safe_fillLabels hps _ hok) ?_ fun rs hrs =>
    safe_setLabels hrs
  intro s1 rs s2 hr i hi
  rw [fillLabels_ok hr] at hi
  obtain ⟨j, hj, rfl⟩ := List.mem_map.1 hi
  exact (hok j hj).filled

theorem safe_finalize (hps : ∀ p, ps p) : Safe base ro ps finalize :=
  .bind (safe_forPages hps fun _ => ⟨rfl, rfl⟩) fun _ =>
  .bind (safe_resolve_constants hps) fun _ =>
  .bind (safe_resolve_data hps) fun _ =>
  .bind (safe_forPages hps fun _ => ⟨rfl, rfl⟩) fun _ =>
  .bind (safe_fill_relocs hps) fun _ =>
  safe_forPages hps fun _ => ⟨rfl, rfl⟩

end

/-! ### All calls -/

/-- Calls other than page selection and patching: the pages they may touch. -/
def Op.touches (cur : Page) : Op → Page → Prop
  | .page p _ => fun q => q = cur ∨ q = p
  | .finalize => fun _ => True
  | _ => fun q => q = cur

theorem safe_op {base : Nat} {ro : Prop} {ps : Page → Prop} {op : Op} (cur : Page)
    (hsel : ∀ p, op ≠ .select_page p) (hpatch : ¬ op.isPatch)
    (hfin : ∀ i, op ≠ .inst i ∨ ¬ ro) (henc : ∀ c, op ≠ .enc c ∨ ¬ ro)
    (hps : ∀ p, op.touches cur p → ps p) : Safe base ro ps op.run := by
  cases op with
  | select_page p => exact absurd rfl (hsel p)
  | cur c => exact .onCur fun p hp hps => safe_pageCall c hp hps
  | page p c =>
    intro s h hp
    simp only [Op.run]
    by_cases h3 : p < 3
    · rw [ok_bind (a := ()) (s1 := s) (by simp [checkPage, h3])]
      exact safe_pageCall c h3 (hps p (.inr rfl)) s h hp
    · rw [panic_bind (e := .indexOutOfBounds) (s1 := s) (by simp [checkPage, h3])]
      exact ⟨Touch.refl h, fun _ _ => by simp⟩
  | emit bs =>
    rw [Op.run_items (op := .emit bs) rfl]
    exact safe_items _ fun _ h => by simp at h
  | new c => exact .bind (safe_newCall c) fun _ => .pure _
  | bind_label l => exact safe_bind_label l
  | bind_label_with_page p l => exact safe_bind_label_with_page p l
  | save_reloc l off => exact safe_save_reloc l off
  | enc c =>
    rw [Op.run_items (op := .enc c) rfl]
    exact safe_items _ fun r => ((henc c).elim (fun h => absurd rfl h) fun h => absurd r h)
  | inst i =>
    have hr : ¬ ro := (hfin i).elim (fun h => absurd rfl h) id
    cases e : items i with
    | ok its => rw [Op.run_items (op := .inst i) (its := its) (by simp [Op.itemsOf, e])]
                exact safe_items _ fun r => absurd r hr
    | error er => rw [Op.run_items (op := .inst i) (its := []) (by simp [Op.itemsOf, e])]
                  exact .pure ()
  | finalize => exact safe_finalize fun p => hps p trivial
  | apply_jmp_patch p d => exact absurd trivial hpatch
  | apply_jmp_patch_address p d => exact absurd trivial hpatch

end Monoasm
