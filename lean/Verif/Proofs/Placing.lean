import Verif.Proofs.Finalize
import Verif.Proofs.LabelAddr
/-
  Placing the objects, whatever the outcome.
-/

set_option linter.unusedSimpArgs false

namespace Monoasm
open JitMemory Spec

section
variable {base : Nat} {α β : Type}

/-! ### It only adds -/

theorem emitq_state (p : Page) (v : BitVec 64) (s : JitMemory) : (MemPage.emitq p v s).state.labels = s.labels := by
  simp only [MemPage.emitq, M.bind_def, emitl_run, emitRes]
  split
  · rename_i h
    split at h
    · cases h; split <;> rfl
    · cases h
  · rename_i h
    split at h
    · cases h
    · cases h; rfl

theorem grow_absolute {p : Page} (hp : p < 3) (l : DestLabel) {s : JitMemory} (hi : Inv base s) (ha : (s.pages p).counter % 8 = 0) :
    Inv base ((do save_absolute_reloc p l; MemPage.emitq p 0 : M Unit) s).state
    ∧ Grow s ((do save_absolute_reloc p l; MemPage.emitq p 0 : M Unit) s).state := by
  refine ⟨((show Safe base False (fun _ => True) (do save_absolute_reloc p l; MemPage.emitq p 0) from
    .bind (safe_save_absolute_reloc p l hp) fun _ => safe_emitq _ hp trivial) s hi trivial).1.inv, ?_⟩
  by_cases hl : l < s.labels.length
  · rw [ok_bind (by rw [save_absolute_reloc_run, if_pos hl])]
    have hi1 : Inv base { s with labels := s.labels.modify l fun i =>
        { i with target := i.target ++ [.abs p (s.pages p).counter] } } := by
      refine hi.modifyLabel (fun i p c h => .inl h) fun i t' ht' => ?_
      simp only [List.mem_append, List.mem_singleton] at ht'
      rcases ht' with h' | rfl
      · exact .inl h'
      · exact .inr ⟨hp, hi.counter _⟩
    refine slot_grow (p := p) (t := .abs p (s.pages p).counter) hi hp rfl rfl (.inr ha) hl rfl ?_ (emitq_state _ _ _)
    by_cases h8 : (s.pages p).counter + 8 ≤ PAGE_SIZE
    · refine .inl ⟨h8, ?_⟩
      have := emitq_run p 0 { s with labels := s.labels.modify l fun i =>
        { i with target := i.target ++ [.abs p (s.pages p).counter] } } h8
      rw [le64_zero] at this
      exact congrArg Res.state this
    · exact .inr ⟨h8, (Grows.emitq (base := base) 0 hp _ hi1).2⟩
  · rw [panic_bind (by rw [save_absolute_reloc_run, if_neg hl])]
    exact .refl s

theorem Grows.absAddress {p : Page} (hp : p < 3) (x l : DestLabel) : Grows base (resolveOne p (.absAddress x) l) := by
  intro s hi
  simp only [resolveOne, align8_eq]
  obtain ⟨s1, h1⟩ : ∃ s1, Monoasm.alignOp 3 p s = .ok () s1 := ⟨_, alignOp_run ..⟩
  rw [ok_bind h1]
  have g1 := (Grows.alignOp (base := base) (p := p) 3 (by decide)) s hi
  have g2 := (Grows.bind_label_with_page (base := base) p l) s1
  rw [h1] at g1
  have g2 := g2 g1.1
  cases h2 : JitMemory.bind_label_with_page p l s1 with
  | panic e s2 =>
    rw [panic_bind h2]
    rw [h2] at g2
    exact ⟨g2.1, g1.2.trans g2.2⟩
  | ok u s2 =>
    rw [ok_bind h2]
    have hb := bound_ok hi (by decide) hp h1 h2
    have g3 := grow_absolute hp x hb.inv (Nat.mod_eq_zero_of_dvd hb.dvd)
    exact ⟨g3.1, hb.grow.trans g3.2⟩

theorem Grows.emitZeros {p : Page} (hp : p < 3) (n : Nat) : Grows base (emitZeros p n) := by
  induction n with
  | zero => exact .pure ()
  | succ n ih => exact .bind (.emitb _ hp) fun _ => ih

theorem Grows.resolveOne {p : Page} (hp : p < 3) (d : DataType) (l : DestLabel) : Grows base (resolveOne p d l) := by
  cases d with
  | u64 v => exact .bind (.alignOp 4 (by decide)) fun _ => .bind (.bind_label_with_page p l) fun _ => .emitq _ hp
  | u32 v => exact .bind (.alignOp 2 (by decide)) fun _ => .bind (.bind_label_with_page p l) fun _ => .emitl _ hp
  | bytes n => exact .bind (.alignOp 4 (by decide)) fun _ => .bind (.bind_label_with_page p l) fun _ => .emitZeros hp _
  | absAddress x => exact .absAddress hp x l
  | align8 => exact .bind (.alignOp 3 (by decide)) fun _ => .bind_label_with_page p l

theorem Grows.resolveList {p : Page} (hp : p < 3) (cs : List (DataType × DestLabel)) : Grows base (resolveList p cs) := by
  induction cs with
  | nil => exact .pure ()
  | cons c cs ih => exact .bind (.resolveOne hp _ _) fun _ => ih

theorem Grows.updPage (p : Page) (f : MemPage → MemPage) (hf : ∀ pg, f pg = { pg with constants := (f pg).constants, data := (f pg).data }) :
    Grows base (M.modify fun s => s.updPage p f) := by
  have e : ∀ pg, (f pg).contents = pg.contents ∧ (f pg).counter = pg.counter ∧ (f pg).code_len = pg.code_len
      ∧ (f pg).code_block_top = pg.code_block_top ∧ (f pg).code_block = pg.code_block := by
    intro pg; rw [hf pg]; exact ⟨rfl, rfl, rfl, rfl, rfl⟩
  refine .of_safe (safe_updPage trivial fun pg => ⟨(e pg).1, (e pg).2.1⟩) fun s hi => ?_
  refine grow_of_labels (by rfl) ?_ ?_ ?_ ?_ ?_ ?_
  · intro q; simp only [M.modify, Res.state_ok, JitMemory.updPage]; split
    · rename_i h; subst h; exact (e _).1
    · rfl
  · intro q; simp only [M.modify, Res.state_ok, JitMemory.updPage, cursor]; split
    · rename_i h; subst h; rw [(e _).2.1]; exact Nat.le_refl _
    · exact Nat.le_refl _
  · intro q pos _; simp only [M.modify, Res.state_ok, JitMemory.updPage, byteAt]; split
    · rename_i h; subst h; rw [(e _).1]
    · rfl
  · intro q; simp only [M.modify, Res.state_ok, JitMemory.updPage]; split
    · rename_i h; subst h; exact (e _).2.2.1
    · rfl
  · intro q; simp only [M.modify, Res.state_ok, JitMemory.updPage]; split
    · rename_i h; subst h; exact (e _).2.2.2.1
    · rfl
  · intro q; simp only [M.modify, Res.state_ok, JitMemory.updPage]; split
    · rename_i h; subst h; exact (e _).2.2.2.2
    · rfl

theorem Grows.constantsOf {p : Page} (hp : p < 3) : Grows base (resolveConstantsOf p) :=
  .bind .get fun _ => .bind (.updPage p _ fun _ => rfl) fun _ => .resolveList hp _

theorem Grows.dataOf (p : Page) : Grows base (resolveDataOf p) :=
  .bind .get fun _ => .bind (.updPage p _ fun _ => rfl) fun _ => .resolveList (by decide) _

/-- All four stages of placing. -/
def placeAll : M Unit := do
  resolve_constants
  resolve_data

theorem Grows.placeAll : Grows base placeAll :=
  .bind (.bind (.constantsOf (by decide)) fun _ => .constantsOf (by decide)) fun _ =>
    .bind (.dataOf 0) fun _ => .dataOf 1

theorem keepsF_placeAll : KeepsF placeAll :=
  .bind (.bind (keepF_resolveConstantsOf 0) fun _ => keepF_resolveConstantsOf 1) fun _ =>
    .bind (keepF_resolveDataOf 0) fun _ => keepF_resolveDataOf 1

theorem finalize_placeAll : finalize = (do forPages openBlock; placeAll; forPages closeBlock; fill_relocs; forPages topBlock) := by
  simp only [finalize, placeAll, bind_assoc]

/-! ### Lists of waiting objects -/

theorem page_lt2 {p : Page} (h : p < 2) : p = 0 ∨ p = 1 := by
  have key : ∀ p : Nat, p < 2 → p = 0 ∨ p = 1 := by omega
  exact key p h

theorem constantsOf_state (id : Page) (s : JitMemory) :
    Keep (fun l => ∃ d, (d, l) ∈ (s.pages id).constants) (s.updPage id fun pg => { pg with constants := [] })
      (resolveConstantsOf id s).state :=
  Keeps.resolveList id (s.pages id).constants (fun d _ h => ⟨d, h⟩) _

theorem dataOf_state (id : Page) (s : JitMemory) :
    Keep (fun l => ∃ d, (d, l) ∈ (s.pages id).data) (s.updPage id fun pg => { pg with data := [] })
      (resolveDataOf id s).state :=
  Keeps.resolveList DATA_PAGE (s.pages id).data (fun d _ h => ⟨d, h⟩) _

/-- Objects may have been placed, the others still wait and have no position yet. -/
structure Takes (s s' : JitMemory) : Prop where
  len : s'.labels.length = s.labels.length
  sub : (objects s').Sublist (objects s)
  loc : ∀ l, s'.locOf l ≠ s.locOf l → ∀ x ∈ objects s', x.2.2 ≠ l
  high : ∀ p : Nat, 2 ≤ p → (s'.pages p).constants = (s.pages p).constants ∧ (s'.pages p).data = (s.pages p).data

theorem Takes.refl (s) : Takes s s := ⟨rfl, .refl _, fun _ h => absurd rfl h, fun _ _ => ⟨rfl, rfl⟩⟩

theorem Takes.trans {s s1 s2} (h : Takes s s1) (h' : Takes s1 s2) : Takes s s2 := by
  refine ⟨h'.len.trans h.len, h'.sub.trans h.sub, fun l hl x hx => ?_, fun p hp => ?_⟩
  · by_cases h1 : s2.locOf l = s1.locOf l
    · exact h.loc l (by rw [← h1]; exact hl) x (h'.sub.subset hx)
    · exact h'.loc l h1 x hx
  · rw [(h'.high p hp).1, (h'.high p hp).2]; exact h.high p hp

theorem Sim.takes {s s'} (h : Sim s s') : Takes s s' :=
  ⟨by rw [h.labels], by rw [h.objects]; exact .refl _, fun l hl => absurd (h.locOf l) hl, fun p _ => ⟨h.constants p, h.data p⟩⟩

/-- The labels of the waiting objects differ. -/
def Distinct (s : JitMemory) : Prop := ((objects s).map fun x => x.2.2).Nodup

theorem Takes.distinct {s s'} (h : Takes s s') (hd : Distinct s) : Distinct s' := hd.sublist (h.sub.map _)

theorem Takes.constantsOf {id : Page} (hid : id < 2) {s : JitMemory} (hd : Distinct s) : Takes s (resolveConstantsOf id s).state := by
  have k := constantsOf_state id s
  have hc : ∀ q, ((resolveConstantsOf id s).state.pages q).constants = if q = id then [] else (s.pages q).constants := by
    intro q; rw [k.constants]; simp only [JitMemory.updPage]; split <;> rfl
  have hdt : ∀ q, ((resolveConstantsOf id s).state.pages q).data = (s.pages q).data := by
    intro q; rw [k.data]; simp only [JitMemory.updPage]; split
    · rename_i h; subst h; rfl
    · rfl
  have hl : ∀ l, (resolveConstantsOf id s).state.locOf l ≠ s.locOf l → ∃ d, (d, l) ∈ (s.pages id).constants := by
    intro l h; exact Classical.byContradiction fun h' => h (k.loc l h')
  refine ⟨k.len, ?_, fun l h x hx e => ?_, fun p hp => ?_⟩
  · simp only [objects, hc, hdt]
    rcases page_lt2 hid with rfl | rfl
    · simp only [if_true, show ¬ ((1 : Page) = 0) by decide, if_false, List.map_nil, List.nil_append]
      exact List.sublist_append_right _ _
    · simp only [if_true, show ¬ ((0 : Page) = 1) by decide, if_false, List.map_nil, List.nil_append]
      exact .append (.refl _) (List.sublist_append_right _ _)
  · obtain ⟨d, hm⟩ := hl l h
    subst e
    simp only [objects, hc, hdt] at hx
    simp only [Distinct, objects, List.map_append] at hd
    rcases page_lt2 hid with rfl | rfl
    · simp only [if_true, show ¬ ((1 : Page) = 0) by decide, if_false, List.map_nil, List.nil_append] at hx
      rw [List.nodup_append] at hd
      refine hd.2.2 x.2.2 ?_ x.2.2 ?_ rfl
      · exact List.mem_map.2 ⟨_, List.mem_map.2 ⟨_, hm, rfl⟩, rfl⟩
      · rw [← List.map_append, ← List.map_append]; exact List.mem_map.2 ⟨x, hx, rfl⟩
    · simp only [if_true, show ¬ ((0 : Page) = 1) by decide, if_false, List.map_nil, List.nil_append] at hx
      rw [List.nodup_append] at hd
      rcases List.mem_append.1 hx with hx | hx
      · refine hd.2.2 x.2.2 (List.mem_map.2 ⟨x, hx, rfl⟩) x.2.2 ?_ rfl
        exact List.mem_append_left _ (List.mem_map.2 ⟨_, List.mem_map.2 ⟨_, hm, rfl⟩, rfl⟩)
      · have hd := hd.2.1
        rw [List.nodup_append] at hd
        refine hd.2.2 x.2.2 (List.mem_map.2 ⟨_, List.mem_map.2 ⟨_, hm, rfl⟩, rfl⟩) x.2.2 ?_ rfl
        rw [← List.map_append]; exact List.mem_map.2 ⟨x, hx, rfl⟩
  · rw [hc, hdt, if_neg (by rintro rfl; exact absurd hid (Nat.not_lt.2 hp))]; exact ⟨rfl, rfl⟩

theorem Takes.dataOf {id : Page} (hid : id < 2) {s : JitMemory} (hd : Distinct s) : Takes s (resolveDataOf id s).state := by
  have k := dataOf_state id s
  have hdt : ∀ q, ((resolveDataOf id s).state.pages q).data = if q = id then [] else (s.pages q).data := by
    intro q; rw [k.data]; simp only [JitMemory.updPage]; split <;> rfl
  have hc : ∀ q, ((resolveDataOf id s).state.pages q).constants = (s.pages q).constants := by
    intro q; rw [k.constants]; simp only [JitMemory.updPage]; split
    · rename_i h; subst h; rfl
    · rfl
  have hl : ∀ l, (resolveDataOf id s).state.locOf l ≠ s.locOf l → ∃ d, (d, l) ∈ (s.pages id).data := by
    intro l h; exact Classical.byContradiction fun h' => h (k.loc l h')
  refine ⟨k.len, ?_, fun l h x hx e => ?_, fun p hp => ?_⟩
  · simp only [objects, hc, hdt]
    refine .append (.refl _) (.append (.refl _) ?_)
    rcases page_lt2 hid with rfl | rfl
    · simp only [if_true, show ¬ ((1 : Page) = 0) by decide, if_false, List.map_nil, List.nil_append]
      exact List.sublist_append_right _ _
    · simp only [if_true, show ¬ ((0 : Page) = 1) by decide, if_false, List.map_nil, List.append_nil]
      exact List.sublist_append_left _ _
  · obtain ⟨d, hm⟩ := hl l h
    subst e
    have hm2 : (x.2.2 : DestLabel) ∈ ((s.pages id).data.map fun x => (DATA_PAGE, x.1, x.2)).map (fun x => x.2.2) :=
      List.mem_map.2 ⟨_, List.mem_map.2 ⟨_, hm, rfl⟩, rfl⟩
    simp only [objects, hc, hdt] at hx
    simp only [Distinct, objects, List.map_append] at hd
    rw [List.nodup_append] at hd
    obtain ⟨-, hd2, h0⟩ := hd
    rw [List.nodup_append] at hd2
    obtain ⟨-, hd2, h1⟩ := hd2
    rw [List.nodup_append] at hd2
    obtain ⟨-, -, h2⟩ := hd2
    rcases List.mem_append.1 hx with hx | hx
    · refine h0 x.2.2 (List.mem_map.2 ⟨x, hx, rfl⟩) x.2.2 ?_ rfl
      rcases page_lt2 hid with rfl | rfl <;> simp only [List.mem_append, hm2, true_or, or_true]
    rcases List.mem_append.1 hx with hx | hx
    · refine h1 x.2.2 (List.mem_map.2 ⟨x, hx, rfl⟩) x.2.2 ?_ rfl
      rcases page_lt2 hid with rfl | rfl <;> simp only [List.mem_append, hm2, true_or, or_true]
    rcases page_lt2 hid with rfl | rfl
    · simp only [if_true, show ¬ ((1 : Page) = 0) by decide, if_false, List.map_nil, List.nil_append] at hx
      exact h2 x.2.2 hm2 x.2.2 (List.mem_map.2 ⟨x, hx, rfl⟩) rfl
    · simp only [if_true, show ¬ ((0 : Page) = 1) by decide, if_false, List.map_nil, List.append_nil] at hx
      exact h2 x.2.2 (List.mem_map.2 ⟨x, hx, rfl⟩) x.2.2 hm2 rfl
  · rw [hc, hdt, if_neg (by rintro rfl; exact absurd hid (Nat.not_lt.2 hp))]; exact ⟨rfl, rfl⟩

/-- Outcome-wise. -/
def Taking {α} (m : M α) : Prop := ∀ s, Distinct s → Takes s (m s).state

theorem Taking.bind {m : M α} {f : α → M β} (hm : Taking m) (hf : ∀ a, Taking (f a)) : Taking (m >>= f) := by
  intro s hd
  have h1 := hm s hd
  rw [M.bind_def]
  cases e : m s with
  | ok a s1 => rw [e] at h1; exact h1.trans (hf a s1 (h1.distinct hd))
  | panic er s1 => rw [e] at h1; exact h1

theorem Taking.placeAll : Taking placeAll :=
  .bind (.bind (fun _ h => .constantsOf (by decide) h) fun _ _ h => .constantsOf (by decide) h) fun _ =>
    .bind (fun _ h => .dataOf (by decide) h) fun _ _ h => .dataOf (by decide) h

/-- All of them are gone in the end. -/
theorem placeAll_lists {s s' : JitMemory} (h : placeAll s = .ok () s') : objects s' = [] := by
  simp only [placeAll, resolve_constants, resolve_data, bind_assoc] at h
  obtain ⟨_, s1, h1, h⟩ := bind_ok h
  obtain ⟨_, s2, h2, h⟩ := bind_ok h
  obtain ⟨_, s3, h3, h4⟩ := bind_ok h
  have k1 := constantsOf_state 0 s
  have k2 := constantsOf_state 1 s1
  have k3 := dataOf_state 0 s2
  have k4 := dataOf_state 1 s3
  rw [h1] at k1; rw [h2] at k2; rw [h3] at k3; rw [h4] at k4
  simp only [Res.state_ok] at k1 k2 k3 k4
  simp only [objects, k4.constants, k4.data, JitMemory.updPage, k3.constants, k3.data, k2.constants, k2.data, k1.constants, k1.data,
    show ¬ ((0 : Page) = 1) by decide, show ¬ ((1 : Page) = 0) by decide, if_true, if_false, List.map_nil, List.append_nil]

/-! ### A `finalize` that panics -/

/-- There is no room, or a label is unknown: the labels stay, except that objects may have been placed. -/
structure Unplaced (s s' : JitMemory) : Prop where
  keep : KeepF (Pending s) s s'
  contents : ∀ p, (s'.pages p).contents = (s.pages p).contents
  cursor : ∀ p, Spec.cursor s p ≤ Spec.cursor s' p
  targets : ∀ l, ∃ ts, Spec.targets s' l = Spec.targets s l ++ ts ∧ ∀ t ∈ ts, Spec.cursor s t.page ≤ t.pos
  slots : Slots s → Slots s'
  zeroed : Slots s → Zeroed s → Zeroed s'
  mem : ∀ p pos, pos < Spec.cursor s p → byteAt s' p pos = byteAt s p pos
  pages : ∀ p, p < 3 → (s'.pages p).code_block = (s.pages p).code_block ++ [((s.pages p).code_block_top, Spec.cursor s p, 0)]
    ∧ (s'.pages p).code_block_top = (s.pages p).code_block_top ∧ (s'.pages p).code_len = Spec.cursor s p
  takes : Distinct s → Takes s s'

/-- The state when the filling begins. -/
structure Filling (base : Nat) (s sc : JitMemory) : Prop where
  inv : Inv base sc
  objects : objects sc = []
  len : sc.labels.length = s.labels.length
  high : Distinct s → ∀ p : Nat, 2 ≤ p → (sc.pages p).constants = (s.pages p).constants ∧ (sc.pages p).data = (s.pages p).data

theorem unplaced_of {s sa s' : JitMemory} {er} (hi : Inv base s) (ha : JitMemory.forPages openBlock s = .ok () sa)
    (eb : placeAll sa = .panic er s') : Unplaced s s' := by
  have ma : Sim s sa := sim_forPages (f := openBlock) (fun _ => ⟨rfl, rfl, rfl, rfl⟩) ha
  have hpa : ∀ p, p < 3 → sa.pages p = openBlock (s.pages p) := by intro p hp; cases ha; simp [hp]
  have g := (Grows.placeAll (base := base)) sa (ma.inv hi)
  have kf := keepsF_placeAll sa
  have tk := Taking.placeAll sa
  have kf0 := keepsF_forPages openBlock (fun _ => ⟨rfl, rfl⟩) s
  rw [ha] at kf0
  rw [eb] at g kf tk
  refine ⟨kf0.trans (kf.mono kf0.pending), fun p => ?_, fun p => ?_, fun l => ?_, fun hs => ?_, fun hs hz => ?_, fun p pos hp => ?_,
    fun p hp => ?_, fun hd => ma.takes.trans (tk (ma.takes.distinct hd))⟩
  · rw [← ma.contents]; exact g.2.contents p
  · rw [← ma.cursor]; exact g.2.cursor p
  · obtain ⟨ts, e1, e2⟩ := g.2.targets l
    refine ⟨ts, by rw [← ma.targets]; exact e1, fun t ht => by rw [← ma.cursor]; exact e2 t ht⟩
  · exact g.2.slots (ma.slots hs)
  · exact g.2.zeroed (ma.slots hs) (ma.zeroed hz)
  · rw [← ma.byteAt]; exact g.2.mem p pos (by rw [ma.cursor]; exact hp)
  · have h1 := g.2.code_block p
    have h2 := g.2.code_block_top p
    have h3 := g.2.code_len p
    rw [hpa p hp] at h1 h2 h3
    exact ⟨h1, h2, h3⟩

theorem finalize_panics {s s' : JitMemory} {e} (hi : Inv base s) (h : finalize s = .panic e s') :
    Unplaced s s' ∨ ∃ sc, Filling base s sc ∧ fill_relocs sc = .panic e s' := by
  obtain ⟨sa, ha⟩ : ∃ sa, JitMemory.forPages openBlock s = .ok () sa := ⟨_, rfl⟩
  have ma : Sim s sa := sim_forPages (f := openBlock) (fun _ => ⟨rfl, rfl, rfl, rfl⟩) ha
  rw [finalize_placeAll, ok_bind ha] at h
  cases eb : placeAll sa with
  | panic er sb =>
    rw [panic_bind eb] at h
    cases h
    exact .inl (unplaced_of hi ha eb)
  | ok u sb =>
    have g := (Grows.placeAll (base := base)) sa (ma.inv hi)
    have kf := keepsF_placeAll sa
    have tk := Taking.placeAll sa
    rw [ok_bind eb] at h
    rw [eb] at g kf tk
    right
    obtain ⟨sc, hc⟩ : ∃ sc, JitMemory.forPages closeBlock sb = .ok () sc := ⟨_, rfl⟩
    have mc : Sim sb sc := sim_forPages (f := closeBlock) (fun _ => ⟨rfl, rfl, rfl, rfl⟩) hc
    rw [ok_bind hc] at h
    refine ⟨sc, ⟨mc.inv g.1, by rw [mc.objects]; exact placeAll_lists eb, by rw [mc.labels, ← ma.labels]; exact kf.len, fun hd p hp => ?_⟩, ?_⟩
    · rw [mc.constants, mc.data]; exact (ma.takes.trans (tk (ma.takes.distinct hd))).high p hp
    · cases ef : JitMemory.fill_relocs sc with
      | ok u sd => rw [ok_bind ef] at h; cases h
      | panic er sd => rw [panic_bind ef] at h; cases h; rfl

theorem fill_panics {s s' : JitMemory} {e} (h : fill_relocs s = .panic e s') :
    s'.labels = [] ∧ ∀ p, (s'.pages p).constants = (s.pages p).constants ∧ (s'.pages p).data = (s.pages p).data := by
  simp only [fill_relocs, M.bind_def, M.get, M.modify] at h
  have hk := Keeps.fillLabels (B := fun _ => True) s.labels { s with labels := [] }
  cases e2 : fillLabels s.labels { s with labels := [] } with
  | ok rs s2 => rw [e2] at h; cases h
  | panic er2 s2 =>
    rw [e2] at h hk; cases h
    exact ⟨List.eq_nil_of_length_eq_zero hk.len, fun p => ⟨hk.constants p, hk.data p⟩⟩

/-- If the labels are not lost it was not the filling that failed. -/
theorem finalize_unplaced {s s' : JitMemory} {e} (hi : Inv base s) (h : finalize s = .panic e s')
    (hl : s'.labels.length = s.labels.length) : Unplaced s s' := by
  rcases finalize_panics hi h with h' | ⟨sc, f, h'⟩
  · exact h'
  · exfalso
    have := (fill_panics h').1
    rw [this] at hl
    have hs : sc.labels = [] := by
      apply List.eq_nil_of_length_eq_zero
      rw [f.len, ← hl]; rfl
    simp only [fill_relocs, M.bind_def, M.get, M.modify, hs, fillLabels] at h'
    cases h'

end
end Monoasm
