import Verif.Proofs.Past
/-
  What a `finalize` that returns does in any state whatsoever that satisfies the invariant `Inv` of
  all histories (also after direct calls of `save_reloc` and after caught panics).
-/

set_option linter.unusedSimpArgs false

namespace Monoasm
open JitMemory Spec

/-- From `s` to `s'` only the cursors of the page records changed, upwards; memory changed only
    between old and new cursors; fields were recorded only there. -/
structure Mild (base : Nat) (s s' : JitMemory) : Prop where
  inv : Inv base s'
  cursor : ∀ p, Spec.cursor s p ≤ Spec.cursor s' p
  record : ∀ p, s'.pages p = { s.pages p with counter := Spec.cursor s' p }
  mem : ∀ x, s'.mem x ≠ s.mem x → ∃ p, p < 3 ∧ ∃ pos, x = addrOf base p pos ∧ Spec.cursor s p ≤ pos ∧ pos < Spec.cursor s' p
  targets : ∀ l t, t ∈ Spec.targets s' l → t ∈ Spec.targets s l ∨
    (Spec.cursor s t.page ≤ t.pos ∧ t.pos + t.size ≤ Spec.cursor s' t.page)

/-- `m` does so whenever it returns. -/
def Tame (base : Nat) {α} (m : M α) : Prop := ∀ s a s', Inv base s → m s = .ok a s' → Mild base s s'

section
variable {base : Nat} {α β : Type}

theorem Mild.refl {s} (hi : Inv base s) : Mild base s s :=
  ⟨hi, fun _ => Nat.le_refl _, fun _ => rfl, fun _ hx => absurd rfl hx, fun _ _ ht => .inl ht⟩

theorem Mild.trans {s s1 s2} (h1 : Mild base s s1) (h2 : Mild base s1 s2) : Mild base s s2 := by
  refine ⟨h2.inv, fun p => Nat.le_trans (h1.cursor p) (h2.cursor p), fun p => ?_, fun x hx => ?_, fun l t ht => ?_⟩
  · have e2 := h2.record p
    rw [h1.record p] at e2
    exact e2
  · by_cases e : s1.mem x = s.mem x
    · obtain ⟨p, hp, pos, e1, e2, e3⟩ := h2.mem x (by rw [e]; exact hx)
      exact ⟨p, hp, pos, e1, Nat.le_trans (h1.cursor p) e2, e3⟩
    · obtain ⟨p, hp, pos, e1, e2, e3⟩ := h1.mem x e
      exact ⟨p, hp, pos, e1, e2, Nat.lt_of_lt_of_le e3 (h2.cursor p)⟩
  · rcases h2.targets l t ht with h | h
    · rcases h1.targets l t h with h | h
      · exact .inl h
      · exact .inr ⟨h.1, Nat.le_trans h.2 (h2.cursor _)⟩
    · exact .inr ⟨Nat.le_trans (h1.cursor _) h.1, h.2⟩

theorem Tame.pure (a : α) : Tame base (Pure.pure a : M α) := by
  intro s b s' hi h
  cases h
  exact .refl hi

theorem Tame.bind {m : M α} {f : α → M β} (hm : Tame base m) (hf : ∀ a, Tame base (f a)) : Tame base (m >>= f) := by
  intro s b s' hi h
  obtain ⟨a, s1, h1, h2⟩ := bind_ok h
  have m1 := hm s a s1 hi h1
  exact m1.trans (hf a s1 b s' m1.inv h2)

theorem Tame.emitRes {p} (bs) (hp : p < 3) : Tame base (emitRes p bs) := by
  intro s a s' hi h
  obtain ⟨hf, rfl⟩ := emitRes_ok h
  have h1 := (safe_emitRes (base := base) (ro := False) (ps := fun _ => True) bs hp trivial s hi trivial).1.inv
  rw [h] at h1
  have hc : Spec.cursor (emitted s p bs) p = Spec.cursor s p + bs.length := by simp [Spec.cursor, emitted]
  refine ⟨h1, fun q => ?_, fun q => ?_, fun x hx => ⟨p, hp, ?_⟩, fun l t ht => .inl ht⟩
  · simp only [Spec.cursor, emitted]; split
    · exact Nat.le_add_right _ _
    · exact Nat.le_refl _
  · simp only [Spec.cursor, emitted]; split
    · rfl
    · rfl
  · have : ¬ (x < (s.pages p).contents + (s.pages p).counter ∨ (s.pages p).contents + (s.pages p).counter + bs.length ≤ x) := by
      intro hn
      exact hx (putBytes_out _ hn)
    rw [hi.contents] at this
    refine ⟨x - (base + PAGE_SIZE * p), ?_, ?_, ?_⟩
    · simp only [addrOf]; omega
    · simp only [Spec.cursor]; omega
    · rw [hc]; simp only [Spec.cursor]; omega

theorem Tame.congr {m m' : M α} (h : ∀ s, m s = m' s) (h' : Tame base m') : Tame base m := by
  intro s a s' hi e
  rw [h] at e
  exact h' s a s' hi e

theorem Tame.emitb {p} (v) (hp : p < 3) : Tame base (MemPage.emitb p v) := .congr (emitb_run p v) (.emitRes _ hp)
theorem Tame.emitl {p} (v) (hp : p < 3) : Tame base (MemPage.emitl p v) := .congr (emitl_run p v) (.emitRes _ hp)
theorem Tame.emitq {p} (v) (hp : p < 3) : Tame base (MemPage.emitq p v) :=
  .bind (.emitl _ hp) fun _ => .emitl _ hp

theorem Tame.alignOp {p} (k) (hk : k ≤ 28) : Tame base (alignOp k p) := by
  intro s a s' hi h
  have h1 := (safe_alignOp (base := base) (ro := False) (ps := fun _ => True) (p := p) k hk trivial s hi trivial).1.inv
  rw [h] at h1
  rw [alignOp_run] at h
  cases h
  refine ⟨h1, (grow_skipped p _ (alignUp_ge hi k p hk)).cursor, fun q => ?_, fun _ hx => absurd rfl hx, fun _ _ ht => .inl ht⟩
  simp only [skipped, Spec.cursor]
  split <;> rfl

theorem modify_mild {l : Nat} {f s a s'} (h1 : Inv base s') (h : JitMemory.modifyLabel l f s = .ok a s')
    (ht : ∀ i, (f i).target = i.target) : Mild base s s' := by
  simp only [JitMemory.modifyLabel] at h
  split at h
  case isTrue hl =>
    cases h
    refine ⟨h1, fun _ => Nat.le_refl _, fun _ => rfl, fun _ hx => absurd rfl hx, fun l' t ht' => .inl ?_⟩
    have key : targets { s with labels := s.labels.modify l f } l' = targets s l' := by
      simp only [targets, List.getElem?_modify]
      by_cases e : l = l'
      · subst e; rw [List.getElem?_eq_getElem hl]; simp [ht]
      · simp [e]
    rw [key] at ht'; exact ht'
  case isFalse => cases h

theorem Tame.bind_label_with_page (p l) : Tame base (JitMemory.bind_label_with_page p l) := by
  intro s a s' hi h
  have h1 := (safe_bind_label_with_page (base := base) (ro := False) (ps := fun _ => True) p l s hi trivial).1.inv
  rw [h] at h1
  simp only [JitMemory.bind_label_with_page] at h
  obtain ⟨_, s1, h1', h2⟩ := bind_ok h
  have : s1 = s := by
    simp only [checkPage] at h1'; split at h1' <;> cases h1'; rfl
  subst this
  exact modify_mild h1 h2 fun _ => rfl

/-- An absolute field together with its eight bytes. -/
theorem Tame.absolute (p x) (hp : p < 3) :
    Tame base (do JitMemory.save_absolute_reloc p x; MemPage.emitq p 0) := by
  intro s a s' hi h
  obtain ⟨_, s1, h1, h2⟩ := bind_ok h
  have i1 := (safe_save_absolute_reloc (base := base) (ro := False) (ps := fun _ => True) p x hp s hi trivial).1.inv
  rw [h1] at i1
  have m2 := Tame.emitq (base := base) (p := p) 0 hp s1 a s' i1 h2
  rw [save_absolute_reloc_run] at h1
  split at h1
  case isFalse => cases h1
  rename_i hl
  cases h1
  refine ⟨m2.inv, m2.cursor, m2.record, m2.mem, fun l t ht => ?_⟩
  have h8 : Spec.cursor s p + 8 ≤ Spec.cursor s' p := by
    simp only [MemPage.emitq] at h2
    obtain ⟨_, s2, k1, k2⟩ := bind_ok h2
    rw [emitl_run] at k1 k2
    obtain ⟨_, rfl⟩ := emitRes_ok k1
    obtain ⟨_, rfl⟩ := emitRes_ok k2
    simp [Spec.cursor, emitted]
  rcases m2.targets l t ht with h | h
  · have key : targets { s with labels := s.labels.modify x fun i => { i with target := i.target ++ [.abs p (s.pages p).counter] } } l
        = if l = x then targets s x ++ [.abs p (s.pages p).counter] else targets s l := by
      simp only [targets, List.getElem?_modify]
      by_cases e : l = x
      · subst e; rw [List.getElem?_eq_getElem hl]; simp
      · have e' : ¬ x = l := fun h => e h.symm
        simp [e, e']
    rw [key] at h
    split at h
    · rename_i e
      subst e
      rcases List.mem_append.1 h with h | h
      · exact .inl h
      · rw [List.mem_singleton] at h
        subst h
        exact .inr ⟨Nat.le_refl _, h8⟩
    · exact .inl h
  · exact .inr h

theorem Tame.emitZeros {p} (n) (hp : p < 3) : Tame base (emitZeros p n) := by
  induction n with
  | zero => exact .pure ()
  | succ n ih => exact .bind (.emitb _ hp) fun _ => ih

theorem Tame.resolveOne {p} (d l) (hp : p < 3) : Tame base (resolveOne p d l) := by
  cases d with
  | u64 v => exact .bind (.alignOp 4 (by decide)) fun _ => .bind (.bind_label_with_page p l) fun _ => .emitq _ hp
  | u32 v => exact .bind (.alignOp 2 (by decide)) fun _ => .bind (.bind_label_with_page p l) fun _ => .emitl _ hp
  | bytes n => exact .bind (.alignOp 4 (by decide)) fun _ => .bind (.bind_label_with_page p l) fun _ => .emitZeros _ hp
  | absAddress x =>
    exact .bind (.alignOp 3 (by decide)) fun _ => .bind (.bind_label_with_page p l) fun _ => .absolute p x hp
  | align8 => exact .bind (.alignOp 3 (by decide)) fun _ => .bind_label_with_page p l

theorem Tame.resolveList {p} (xs) (hp : p < 3) : Tame base (resolveList p xs) := by
  induction xs with
  | nil => exact .pure ()
  | cons x xs ih => exact .bind (.resolveOne _ _ hp) fun _ => ih

/-- The same, but the lists of waiting objects may have been emptied. -/
structure Drain (base : Nat) (s s' : JitMemory) : Prop where
  inv : Inv base s'
  cursor : ∀ p, Spec.cursor s p ≤ Spec.cursor s' p
  record : ∀ p, s'.pages p = { s.pages p with counter := Spec.cursor s' p, constants := (s'.pages p).constants, data := (s'.pages p).data }
  mem : ∀ x, s'.mem x ≠ s.mem x → ∃ p, p < 3 ∧ ∃ pos, x = addrOf base p pos ∧ Spec.cursor s p ≤ pos ∧ pos < Spec.cursor s' p
  targets : ∀ l t, t ∈ Spec.targets s' l → t ∈ Spec.targets s l ∨
    (Spec.cursor s t.page ≤ t.pos ∧ t.pos + t.size ≤ Spec.cursor s' t.page)

theorem Drain.trans {s s1 s2} (h1 : Drain base s s1) (h2 : Drain base s1 s2) : Drain base s s2 := by
  refine ⟨h2.inv, fun p => Nat.le_trans (h1.cursor p) (h2.cursor p), fun p => ?_, fun x hx => ?_, fun l t ht => ?_⟩
  · have e2 := h2.record p
    rw [h1.record p] at e2
    exact e2
  · by_cases e : s1.mem x = s.mem x
    · obtain ⟨p, hp, pos, e1, e2, e3⟩ := h2.mem x (by rw [e]; exact hx)
      exact ⟨p, hp, pos, e1, Nat.le_trans (h1.cursor p) e2, e3⟩
    · obtain ⟨p, hp, pos, e1, e2, e3⟩ := h1.mem x e
      exact ⟨p, hp, pos, e1, e2, Nat.lt_of_lt_of_le e3 (h2.cursor p)⟩
  · rcases h2.targets l t ht with h | h
    · rcases h1.targets l t h with h | h
      · exact .inl h
      · exact .inr ⟨h.1, Nat.le_trans h.2 (h2.cursor _)⟩
    · exact .inr ⟨Nat.le_trans (h1.cursor _) h.1, h.2⟩

theorem drain_constants {s s'} (hi : Inv base s) {p} (hp : p < 3) (h : resolveConstantsOf p s = .ok () s') :
    Drain base s s' ∧ ∀ q, (s'.pages q).constants = (if q = p then [] else (s.pages q).constants)
      ∧ (s'.pages q).data = (s.pages q).data := by
  have hi' : Inv base (s.updPage p fun pg => { pg with constants := [] }) :=
    (safe_updPage (base := base) (ro := False) (ps := fun _ => True) (p := p) (f := fun pg => { pg with constants := [] })
      trivial (fun _ => ⟨rfl, rfl⟩) s hi trivial).1.inv
  have h2 : resolveList p (s.pages p).constants (s.updPage p fun pg => { pg with constants := [] }) = .ok () s' := h
  have m := Tame.resolveList (base := base) _ hp _ _ _ hi' h2
  have hc : ∀ q, Spec.cursor (s.updPage p fun pg => { pg with constants := [] }) q = Spec.cursor s q := by
    intro q; simp only [Spec.cursor, JitMemory.updPage]; split <;> rfl
  refine ⟨⟨m.inv, fun q => by rw [← hc]; exact m.cursor q, fun q => ?_, fun x hx => ?_, fun l t ht => ?_⟩, fun q => ?_⟩
  · rw [m.record q]; simp only [JitMemory.updPage]; split <;> rfl
  · obtain ⟨q, hq, pos, e1, e2, e3⟩ := m.mem x hx
    exact ⟨q, hq, pos, e1, by rw [← hc]; exact e2, e3⟩
  · rw [← hc]; exact m.targets l t ht
  · rw [m.record q]; simp only [JitMemory.updPage]; split <;> simp

theorem drain_data {s s'} (hi : Inv base s) {p} (h : resolveDataOf p s = .ok () s') :
    Drain base s s' ∧ ∀ q, (s'.pages q).data = (if q = p then [] else (s.pages q).data)
      ∧ (s'.pages q).constants = (s.pages q).constants := by
  have hi' : Inv base (s.updPage p fun pg => { pg with data := [] }) :=
    (safe_updPage (base := base) (ro := False) (ps := fun _ => True) (p := p) (f := fun pg => { pg with data := [] })
      trivial (fun _ => ⟨rfl, rfl⟩) s hi trivial).1.inv
  have h2 : resolveList DATA_PAGE (s.pages p).data (s.updPage p fun pg => { pg with data := [] }) = .ok () s' := h
  have m := Tame.resolveList (base := base) _ (by decide) _ _ _ hi' h2
  have hc : ∀ q, Spec.cursor (s.updPage p fun pg => { pg with data := [] }) q = Spec.cursor s q := by
    intro q; simp only [Spec.cursor, JitMemory.updPage]; split <;> rfl
  refine ⟨⟨m.inv, fun q => by rw [← hc]; exact m.cursor q, fun q => ?_, fun x hx => ?_, fun l t ht => ?_⟩, fun q => ?_⟩
  · rw [m.record q]; simp only [JitMemory.updPage]; split <;> rfl
  · obtain ⟨q, hq, pos, e1, e2, e3⟩ := m.mem x hx
    exact ⟨q, hq, pos, e1, by rw [← hc]; exact e2, e3⟩
  · rw [← hc]; exact m.targets l t ht
  · rw [m.record q]; simp only [JitMemory.updPage]; split <;> simp

/-- Everything known of a `finalize` that returns, in any state. -/
structure FinalRun (base : Nat) (s s' : JitMemory) : Prop where
  inv : Inv base s'
  selected : s'.page = s.page
  cursor : ∀ p, Spec.cursor s p ≤ Spec.cursor s' p
  pages : ∀ p, p < 3 → s'.pages p =
    { contents := (s.pages p).contents
      counter := Spec.cursor s' p
      constants := if p = 0 ∨ p = 1 then [] else (s.pages p).constants
      data := if p = 0 ∨ p = 1 then [] else (s.pages p).data
      code_len := Spec.cursor s p
      code_block_top := Spec.cursor s' p
      code_block := (s.pages p).code_block ++ [((s.pages p).code_block_top, Spec.cursor s p, Spec.cursor s' p)] }
  bound : ∀ l, s'.locOf l ≠ none → targets s' l = []
  mem : ∀ x, s'.mem x ≠ s.mem x → ∃ p, p < 3 ∧ ∃ pos, x = addrOf base p pos ∧ pos < PAGE_SIZE ∧
    ((Spec.cursor s p ≤ pos ∧ pos < Spec.cursor s' p) ∨ ∃ l t, s'.locOf l ≠ none ∧ t ∈ targets s l ∧ Live t ∧ Covers t p pos)

theorem filled_bound (i : LabelInfo) (h : i.loc ≠ none) : i.filled.target = [] := by
  simp only [LabelInfo.filled]
  cases e : i.loc with
  | none => exact absurd e h
  | some pc => simp

theorem locOf_filled (ls : List LabelInfo) (l : Nat) :
    ((ls.map LabelInfo.filled)[l]?).bind LabelInfo.loc = (ls[l]?).bind LabelInfo.loc := by
  simp only [List.getElem?_map]
  rcases Option.eq_none_or_eq_some (ls[l]?) with e | ⟨i, e⟩
  · rw [e]; rfl
  · rw [e]; simp [LabelInfo.filled]; split <;> rfl

theorem finalize_run {s s' : JitMemory} (hi : Inv base s) (h : finalize s = .ok () s') : FinalRun base s s' := by
  have hsafe := (safe_finalize (base := base) (ro := False) (ps := fun _ => True) (fun _ => trivial) s hi trivial).1
  rw [h] at hsafe
  simp only [finalize] at h
  obtain ⟨_, sa, ha, h⟩ := bind_ok h
  obtain ⟨_, sr, hr, h⟩ := bind_ok h
  obtain ⟨_, sb, hb, h⟩ := bind_ok h
  obtain ⟨_, sc, hc, h⟩ := bind_ok h
  obtain ⟨_, sd, hd, he⟩ := bind_ok h
  have ma : Sim s sa := sim_forPages (f := openBlock) (fun _ => ⟨rfl, rfl, rfl, rfl⟩) ha
  have mc : Sim sb sc := sim_forPages (f := closeBlock) (fun _ => ⟨rfl, rfl, rfl, rfl⟩) hc
  have me : Sim sd s' := sim_forPages (f := topBlock) (fun _ => ⟨rfl, rfl, rfl, rfl⟩) he
  have hr' := hr
  have hb' := hb
  simp only [resolve_constants] at hr'
  simp only [resolve_data] at hb'
  obtain ⟨_, s1, k1, k2⟩ := bind_ok hr'
  obtain ⟨_, s2, k3, k4⟩ := bind_ok hb'
  obtain ⟨d1, l1⟩ := drain_constants (ma.inv hi) (by decide) k1
  obtain ⟨d2, l2⟩ := drain_constants d1.inv (by decide) k2
  obtain ⟨d3, l3⟩ := drain_data d2.inv k3
  obtain ⟨d4, l4⟩ := drain_data d3.inv k4
  have D := ((d1.trans d2).trans d3).trans d4
  have hconst : ∀ p : Page, (sb.pages p).constants = if p = 0 ∨ p = 1 then [] else (s.pages p).constants := by
    intro p
    rw [(l4 p).2, (l3 p).2, (l2 p).1, (l1 p).1, ma.constants]
    by_cases h0 : p = 0
    · subst h0; simp
    · by_cases h1 : p = 1
      · subst h1; simp
      · simp [h0, h1]
  have hdata : ∀ p : Page, (sb.pages p).data = if p = 0 ∨ p = 1 then [] else (s.pages p).data := by
    intro p
    rw [(l4 p).1, (l3 p).1, (l2 p).2, (l1 p).2, ma.data]
    by_cases h0 : p = 0
    · subst h0; simp
    · by_cases h1 : p = 1
      · subst h1; simp
      · simp [h0, h1]
  have hic := mc.inv D.inv
  obtain ⟨f1, f2⟩ := fill_relocs_run hd
  have hcur : ∀ p, Spec.cursor s' p = Spec.cursor sb p := fun p => by
    rw [me.cursor]; subst f2; exact mc.cursor p
  have hcur0 : ∀ p, Spec.cursor sa p = Spec.cursor s p := fun p => ma.cursor p
  have hloc : ∀ l, s'.locOf l = sc.locOf l := fun l => by
    rw [me.locOf]; subst f2; exact locOf_filled sc.labels l
  refine ⟨hsafe.inv, hsafe.page, fun p => ?_, fun p hp => ?_, fun l hl => ?_, fun x hx => ?_⟩
  · rw [hcur, ← hcur0]; exact D.cursor p
  · have e1 : sa.pages p = openBlock (s.pages p) := by cases ha; simp [hp]
    have e2 : sc.pages p = closeBlock (sb.pages p) := by cases hc; simp [hp]
    have e3 : s'.pages p = topBlock (sd.pages p) := by cases he; simp [hp]
    have e4 : sd.pages p = sc.pages p := by rw [f2]
    have e5 := D.record p
    rw [e1] at e5
    rw [hcur, e3, e4, e2, e5, hconst, hdata]
    simp [topBlock, closeBlock, openBlock, modify_last, Spec.cursor]
  · rw [hloc] at hl
    rw [me.targets]
    rw [f2]
    simp only [targets, List.getElem?_map]
    simp only [JitMemory.locOf] at hl
    rcases Option.eq_none_or_eq_some (sc.labels[l]?) with e | ⟨i, e⟩
    · rw [e]; rfl
    · rw [e] at hl ⊢
      exact filled_bound i hl
  · by_cases e : sd.mem x = sc.mem x
    · have hx' : sb.mem x ≠ sa.mem x := by
        rw [← mc.mem, ← e, ← me.mem, ma.mem]; exact hx
      obtain ⟨p, hp, pos, e1, e2, e3⟩ := D.mem x hx'
      refine ⟨p, hp, pos, e1, Nat.lt_of_lt_of_le e3 (D.inv.counter p), .inl ⟨by rw [← hcur0]; exact e2, by rw [hcur]; exact e3⟩⟩
    · have : ∃ j ∈ jobs sc, ¬ (x < contentsOf sc j.2.page + j.2.pos ∨ contentsOf sc j.2.page + j.2.pos + j.2.size ≤ x) := by
        apply Classical.byContradiction
        intro hno
        apply e
        rw [f2]
        refine fillMem_out _ _ _ _ fun j hj => ?_
        apply Classical.byContradiction
        intro hnn
        exact hno ⟨j, hj, hnn⟩
      obtain ⟨⟨src, t⟩, hj, hin⟩ := this
      have live := (f1 _ hj).1
      obtain ⟨l, q, c, hl, ht, _⟩ := mem_jobs.1 hj
      simp only [contentsOf, hic.contents] at hin live
      have hp3 : t.page < 3 := by
        simp only [targets] at ht
        rcases Option.eq_none_or_eq_some (sc.labels[l]?) with e | ⟨i, e⟩
        · rw [e] at ht; cases ht
        · rw [e] at ht; exact (hic.tgt l i e t ht).1
      have hlive : t.pos + t.size ≤ PAGE_SIZE := live
      refine ⟨t.page, hp3, x - (base + PAGE_SIZE * t.page), ?_, ?_, ?_⟩
      · simp only [addrOf]; omega
      · omega
      · rw [mc.targets] at ht
        rcases D.targets l t ht with h1 | h1
        · rw [ma.targets] at h1
          refine .inr ⟨l, t, by rw [hloc, hl]; simp, h1, hlive, rfl, by omega, by omega⟩
        · rw [hcur0, ← hcur] at h1
          exact .inl ⟨by omega, by omega⟩

end
end Monoasm
