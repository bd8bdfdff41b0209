import Verif.Proofs.Capacity
import Verif.Proofs.Frame
import Verif.Proofs.Twin
import Verif.Proofs.Program
import Verif.Spec.Failed
/-
  What a `finalize` that panics leaves behind.
-/

set_option linter.unusedSimpArgs false

namespace Monoasm
open JitMemory Spec

section
variable {base : Nat} {α β : Type}

theorem placeAll_iff {s sa : JitMemory} (ma : Sim s sa) (hia : Inv base sa) :
    (∃ sb, placeAll sa = .ok () sb) ↔ HasRoom s ∧ NamesKnown s := by
  rw [← stages_iff ma hia]
  constructor
  · rintro ⟨sb, h⟩
    simp only [placeAll, resolve_constants, resolve_data, bind_assoc] at h
    obtain ⟨_, s1, h1, h⟩ := bind_ok h
    obtain ⟨_, s2, h2, h⟩ := bind_ok h
    obtain ⟨_, s3, h3, h4⟩ := bind_ok h
    exact ⟨s1, s2, s3, sb, h1, h2, h3, h4⟩
  · rintro ⟨s1, s2, s3, s4, h1, h2, h3, h4⟩
    refine ⟨s4, ?_⟩
    simp only [placeAll, resolve_constants, resolve_data, bind_assoc]
    rw [ok_bind h1, ok_bind h2, ok_bind h3, h4]

/-! ### Filling -/

/-- A state that differs from `s` in memory only, and there only inside the fields `ts`. -/
structure Pokes (ts : List TargetType) (s s' : JitMemory) : Prop where
  same : s' = { s with mem := s'.mem }
  mem : ∀ p pos, pos < PAGE_SIZE → (∀ t ∈ ts, ¬ Covers t p pos) → byteAt s' p pos = byteAt s p pos

theorem Pokes.refl (ts s) : Pokes ts s s := ⟨rfl, fun _ _ _ _ => rfl⟩

theorem Pokes.trans {ts s1 s2 s3} (h : Pokes ts s1 s2) (h' : Pokes ts s2 s3) : Pokes ts s1 s3 := by
  refine ⟨?_, fun p pos hp hc => (h'.mem p pos hp hc).trans (h.mem p pos hp hc)⟩
  rw [h'.same, h.same]

theorem Pokes.inv {ts s s'} (h : Pokes ts s s') (hi : Inv base s) : Inv base s' := by
  rw [h.same]; exact ⟨hi.contents, hi.counter, hi.page, hi.loc, hi.tgt⟩

theorem Pokes.mono {ts us s s'} (h : Pokes ts s s') (hs : ∀ t ∈ ts, t ∈ us) : Pokes us s s' :=
  ⟨h.same, fun p pos hp hc => h.mem p pos hp fun t ht => hc t (hs t ht)⟩

theorem pokes_writes {s : JitMemory} (hi : Inv base s) (t : TargetType) {bs : List Byte} (hn : bs.length = t.size) :
    Pokes [t] s (writes t.page t.pos bs s).state := by
  rw [writes_run]
  have key : ∀ cs : List Byte, cs.length ≤ bs.length → t.pos + cs.length ≤ PAGE_SIZE ∨ cs = [] →
      Pokes [t] s { s with mem := putBytes s.mem ((s.pages t.page).contents + t.pos) cs } := by
    intro cs h1 h2
    refine ⟨rfl, fun p pos hp hc => ?_⟩
    simp only [byteAt]
    rcases h2 with h2 | rfl
    · refine put_other hi h2 hp ?_
      by_cases e : t.page = p
      · right
        have := hc t (by simp)
        simp only [Covers, e, true_and] at this
        omega
      · exact .inl e
    · rfl
  split
  · rename_i h; exact key bs (Nat.le_refl _) h
  · refine key _ (by simp only [List.length_take]; omega) ?_
    by_cases h : t.pos < PAGE_SIZE
    · left; simp only [List.length_take]; omega
    · right; rw [show PAGE_SIZE - t.pos = 0 by omega]; simp

theorem pokes_fillTarget {s : JitMemory} (hi : Inv base s) (a : Nat) (t : TargetType) : Pokes [t] s (fillTarget a t s).state := by
  cases t with
  | rel p off pos =>
    simp only [fillTarget, M.bind_def, M.get]
    cases i32TryFromInt ((a : Int) - (((s.pages p).contents + pos + off.toNat : Nat) : Int)) with
    | some d =>
      show Pokes _ _ (MemPage.write32 p pos d s).state
      rw [write32_run]; exact pokes_writes hi (.rel p off pos) rfl
    | none => exact .refl _ _
  | abs p pos => simp only [fillTarget]; rw [write64_run]; exact pokes_writes hi (.abs p pos) rfl

theorem pokes_bind {m : M α} {f : α → M β} {ts} {s : JitMemory} (hi : Inv base s) (h : Pokes ts s (m s).state)
    (hf : ∀ a s1, Inv base s1 → Pokes ts s1 (f a s1).state) : Pokes ts s ((m >>= f) s).state := by
  rw [M.bind_def]
  cases e : m s with
  | ok a s1 => rw [e] at h; exact h.trans (hf a s1 (h.inv hi))
  | panic er s1 => rw [e] at h; exact h

theorem pokes_fillTargets {s : JitMemory} (hi : Inv base s) (a : Nat) (ts : List TargetType) :
    Pokes ts s (fillTargets a ts s).state := by
  induction ts generalizing s with
  | nil => exact .refl _ _
  | cons t ts ih =>
    simp only [fillTargets]
    exact pokes_bind hi ((pokes_fillTarget hi a t).mono (by simp)) fun _ s1 h1 => (ih h1).mono (by simp +contextual)

theorem pokes_fillLabel {s : JitMemory} (hi : Inv base s) (i : LabelInfo) : Pokes i.target s (fillLabel i s).state := by
  simp only [fillLabel]
  cases e : i.loc with
  | none => exact .refl _ _
  | some pc =>
    exact pokes_bind hi (.refl _ _) fun _ s1 h1 => pokes_bind h1 (pokes_fillTargets h1 _ _) fun _ _ _ => .refl _ _

theorem pokes_fillLabels {s : JitMemory} (hi : Inv base s) (is : List LabelInfo) :
    Pokes (is.flatMap LabelInfo.target) s (fillLabels is s).state := by
  induction is generalizing s with
  | nil => exact .refl _ _
  | cons i is ih =>
    simp only [fillLabels]
    exact pokes_bind hi ((pokes_fillLabel hi i).mono (by simp +contextual)) fun _ s1 h1 =>
      pokes_bind h1 ((ih h1).mono (by simp +contextual)) fun _ _ _ => .refl _ _

/-- Filling that panics leaves no labels. -/
theorem fill_failed {s s' : JitMemory} {e} (hi : Inv base s) (h : fill_relocs s = .panic e s') :
    s'.labels = [] ∧ s'.pages = s.pages ∧ s'.page = s.page
    ∧ ∀ p pos, pos < PAGE_SIZE → (∀ l t, t ∈ targets s l → ¬ Covers t p pos) → byteAt s' p pos = byteAt s p pos := by
  simp only [fill_relocs, M.bind_def, M.get, M.modify] at h
  have hi0 : Inv base { s with labels := [] } := hi.setLabels (by simp)
  have k := pokes_fillLabels hi0 s.labels
  cases e1 : fillLabels s.labels { s with labels := [] } with
  | ok r s1 => rw [e1] at h; cases h
  | panic er s1 =>
    rw [e1] at h k
    cases h
    rw [Res.state_panic] at k
    refine ⟨by rw [k.same], by rw [k.same], by rw [k.same], fun p pos hp hc => k.mem p pos hp fun t ht => ?_⟩
    obtain ⟨i, hi1, hi2⟩ := List.mem_flatMap.1 ht
    obtain ⟨l, e⟩ := List.mem_iff_getElem?.1 hi1
    exact hc l t (by simpa only [targets, e] using hi2)

/-- Filling that returns, the same for fields that cross the end of the page. -/
theorem fill_sealed {s : JitMemory} (hi : Inv base s) {p : Page} {pos : Nat} (hp : Sealed s p pos) :
    Sealed (fill_relocs s).state p pos ∧ byteAt (fill_relocs s).state p pos = byteAt s p pos := by
  have hlt : pos < PAGE_SIZE := Nat.lt_of_lt_of_le hp.1 (hi.counter p)
  have hi0 : Inv base { s with labels := [] } := hi.setLabels (by simp)
  have k := pokes_fillLabels hi0 s.labels
  have hc : ∀ t ∈ s.labels.flatMap LabelInfo.target, ¬ Covers t p pos := by
    intro t ht
    obtain ⟨i, hi1, hi2⟩ := List.mem_flatMap.1 ht
    obtain ⟨l, e⟩ := List.mem_iff_getElem?.1 hi1
    exact hp.2 l t (by simpa only [targets, e] using hi2)
  have e0 : fill_relocs s = (fillLabels s.labels >>= fun r => M.modify fun s => { s with labels := r }) { s with labels := [] } := rfl
  cases e1 : fillLabels s.labels { s with labels := [] } with
  | ok r s1 =>
    have e2 : fill_relocs s = .ok () { s1 with labels := r } := by rw [e0, ok_bind e1]; rfl
    have hl := fill_relocs_labels e2
    rw [e2]
    rw [e1] at k
    refine ⟨⟨?_, ?_⟩, ?_⟩
    · have := hp.1
      rw [Res.state_ok]
      simp only [Spec.cursor]
      rw [show s1.pages = s.pages by have := k.same; rw [Res.state_ok] at this; rw [this]]
      exact this
    · intro l t ht
      simp only [targets, Res.state_ok] at ht
      simp only at hl
      rw [hl, List.getElem?_map] at ht
      refine hp.2 l t ?_
      simp only [targets]
      cases e3 : s.labels[l]? with
      | none => rw [e3] at ht; exact ht
      | some i =>
        rw [e3] at ht
        simp only [Option.map_some, LabelInfo.filled] at ht
        split at ht
        · simp at ht
        · exact ht
    · exact k.mem p pos hlt hc
  | panic er s1 =>
    have e2 : fill_relocs s = .panic er s1 := by rw [e0, panic_bind e1]
    obtain ⟨h1, h2, h3, h4⟩ := fill_failed hi e2
    rw [e2]
    refine ⟨⟨?_, ?_⟩, h4 p pos hlt hp.2⟩
    · show pos < (s1.pages p).counter; rw [h2]; exact hp.1
    · intro l t ht; simp [targets, h1] at ht

/-! ### Complete bytes -/

/-- Whatever the outcome of `m`, complete bytes stay complete and keep their values. -/
def Seals (base : Nat) {α} (m : M α) : Prop :=
  ∀ s, Inv base s → Inv base (m s).state ∧ ∀ p pos, Sealed s p pos → Sealed (m s).state p pos ∧ byteAt (m s).state p pos = byteAt s p pos

theorem sealed_grow {s s' : JitMemory} {p : Page} {pos : Nat} (h : Sealed s p pos) (g : Grow s s') :
    Sealed s' p pos ∧ byteAt s' p pos = byteAt s p pos := by
  refine ⟨⟨Nat.lt_of_lt_of_le h.1 (g.cursor p), ?_⟩, g.mem p pos h.1⟩
  intro l t ht hc
  obtain ⟨ts, e, hts⟩ := g.targets l
  rw [e] at ht
  rcases List.mem_append.1 ht with ht | ht
  · exact h.2 l t ht hc
  · have := hts t ht
    have h1 := h.1
    obtain ⟨e, h2, h3⟩ := hc
    rw [e] at this
    omega

theorem Seals.of_grows {m : M α} (h : Grows base m) : Seals base m := fun s hi =>
  ⟨(h s hi).1, fun _ _ hp => sealed_grow hp (h s hi).2⟩

theorem Seals.bind {m : M α} {f : α → M β} (hm : Seals base m) (hf : ∀ a, Seals base (f a)) : Seals base (m >>= f) := by
  intro s hi
  have h1 := hm s hi
  rw [M.bind_def]
  cases e : m s with
  | ok a s1 =>
    rw [e] at h1
    have h2 := hf a s1 h1.1
    refine ⟨h2.1, fun p pos hp => ?_⟩
    obtain ⟨k1, k2⟩ := h1.2 p pos hp
    obtain ⟨k3, k4⟩ := h2.2 p pos k1
    exact ⟨k3, k4.trans k2⟩
  | panic er s1 => rw [e] at h1; exact h1

theorem Seals.forPages {f : MemPage → MemPage} (hf : ∀ pg, (f pg).contents = pg.contents ∧ (f pg).counter = pg.counter
    ∧ (f pg).constants = pg.constants ∧ (f pg).data = pg.data) : Seals base (forPages f) := by
  intro s hi
  obtain ⟨s', h⟩ : ∃ s', JitMemory.forPages f s = .ok () s' := ⟨_, rfl⟩
  have m := sim_forPages hf h
  rw [h]
  exact ⟨m.inv hi, fun p pos hp => ⟨⟨by rw [Res.state_ok, m.cursor]; exact hp.1,
    fun l t => by rw [Res.state_ok, m.targets]; exact hp.2 l t⟩, m.byteAt p pos⟩⟩

theorem Seals.fill_relocs : Seals base fill_relocs := fun s hi =>
  ⟨(safe_fill_relocs (base := base) (ro := False) (ps := fun _ => True) (fun _ => trivial) s hi trivial).1.inv,
    fun _ _ hp => fill_sealed hi hp⟩

theorem Seals.finalize : Seals base finalize := by
  rw [finalize_placeAll]
  exact .bind (.forPages fun _ => ⟨rfl, rfl, rfl, rfl⟩) fun _ => .bind (.of_grows .placeAll) fun _ =>
    .bind (.forPages fun _ => ⟨rfl, rfl, rfl, rfl⟩) fun _ => .bind .fill_relocs fun _ => .forPages fun _ => ⟨rfl, rfl, rfl, rfl⟩

/-- Any call, unless it overwrites the byte. -/
theorem sealed_op {s : JitMemory} (hi : Inv base s) (op : Op) {p : Page} {pos : Nat} (hp : Sealed s p pos)
    (hk : ¬ Overwrites s op ((s.pages p).contents + pos)) :
    Sealed (op.run s).state p pos ∧ byteAt (op.run s).state p pos = byteAt s p pos := by
  by_cases hr : ∃ l off, op = .save_reloc l off
  · obtain ⟨l, off, rfl⟩ := hr
    simp only [Op.run, save_reloc_run]
    split
    · rename_i hl
      refine ⟨⟨hp.1, fun l' t ht => ?_⟩, rfl⟩
      rw [Res.state_ok, targets_modify s l _ l' hl] at ht
      split at ht
      · rename_i e; subst e
        simp only [List.mem_append, List.mem_singleton] at ht
        rcases ht with ht | rfl
        · refine hp.2 l' t ?_
          simpa only [targets, List.getElem?_eq_getElem hl] using ht
        · rintro ⟨h1, h2, -⟩
          have := hp.1
          simp only [TargetType.page] at h1
          subst h1
          exact absurd h2 (by simp only [TargetType.pos, cursor] at *; omega)
      · exact hp.2 l' t ht
    · exact ⟨hp, rfl⟩
  · rcases op_cases op (fun l off e => hr ⟨l, off, e⟩) with ha | hq | rfl
    · exact sealed_grow hp (Grows.op ha s hi).2
    · obtain ⟨m, e, hm⟩ := pokes_state hq s
      rw [e]
      exact ⟨⟨hp.1, hp.2⟩, hm _ hk⟩
    · exact (Seals.finalize s hi).2 p pos hp

theorem sealed_caught {s : JitMemory} (hi : Inv base s) {h : List Op} {p : Page} {pos : Nat} (hp : Sealed s p pos)
    (hk : Spares p pos s h) : Sealed (runCaught h s) p pos ∧ byteAt (runCaught h s) p pos = byteAt s p pos := by
  induction h generalizing s with
  | nil => exact ⟨hp, rfl⟩
  | cons op ops ih =>
    rw [runCaught_cons]
    obtain ⟨h1, h2⟩ := hk
    obtain ⟨k1, k2⟩ := sealed_op hi op hp h1
    obtain ⟨k3, k4⟩ := ih (inv_op hi op) k1 h2
    exact ⟨k3, k4.trans k2⟩

/-- The bytes of a field that has been filled are complete. -/
theorem sealed_filled {s s' : JitMemory} (hi : HInv base s) (h : JitMemory.finalize s = .ok () s') {l t} (hl : s'.locOf l ≠ none)
    (ht : t ∈ targets s l) {pos : Nat} (hc : Covers t t.page pos) : Sealed s' t.page pos := by
  have F := finalize_hinv hi h
  have hlive : Live t := by
    cases e : s'.locOf l with
    | none => exact absurd e hl
    | some pc => exact (F.fields l pc.1 pc.2 t e ht).1
  have hs := F.filled l t hl ht pos hc
  refine ⟨hs.1, fun l' u hu hcu => ?_⟩
  by_cases hlu : Live u
  · exact hs.2 l' u hu hlu hcu
  · have hb : s'.locOf l' = none := by
      cases e : s'.locOf l' with
      | none => rfl
      | some pc => rw [F.bound l' (by rw [e]; simp)] at hu; cases hu
    obtain ⟨ts, e, hts⟩ := F.unbound l' hb
    rw [e] at hu
    obtain ⟨c1, c2, c3⟩ := hc
    obtain ⟨d1, d2, d3⟩ := hcu
    have hin := hi.slots.inside l t ht hlive
    rcases List.mem_append.1 hu with hu | hu
    · have := hi.slots.dead l' l u t hu ht hlu hlive d1.symm
      omega
    · have := hts u hu
      rw [d1] at this
      omega

/-- When everything that has been referred to is bound, all code is complete. -/
theorem sealed_bound {s s' : JitMemory} (hi : HInv base s) (h : JitMemory.finalize s = .ok () s')
    (hb : ∀ l t, t ∈ targets s' l → s'.locOf l ≠ none) {p : Page} {pos : Nat} (hp : pos < cursor s' p) : Sealed s' p pos :=
  ⟨hp, fun l t ht _ => by
    have F := finalize_hinv hi h
    rw [F.bound l (hb l t ht)] at ht
    cases ht⟩

/-! ### Objects -/

/-- `m` records no relative field. -/
def NoRel {α} (m : M α) : Prop :=
  ∀ s l p off pos, .rel p off pos ∈ targets (m s).state l → .rel p off pos ∈ targets s l

theorem NoRel.bind {m : M α} {f : α → M β} (hm : NoRel m) (hf : ∀ a, NoRel (f a)) : NoRel (m >>= f) := by
  intro s l p off pos h
  have h1 := hm s l p off pos
  rw [M.bind_def] at h
  cases e : m s with
  | ok a s1 => rw [e] at h h1; exact h1 (hf a s1 l p off pos h)
  | panic er s1 => rw [e] at h h1; exact h1 h

theorem NoRel.of_labels {m : M α} (h : ∀ s, (m s).state.labels = s.labels) : NoRel m := by
  intro s l p off pos ht
  simpa only [targets, h s] using ht

theorem NoRel.modifyLabel {l f} (h : ∀ i p off pos, TargetType.rel p off pos ∈ (f i : LabelInfo).target → .rel p off pos ∈ i.target) :
    NoRel (modifyLabel l f) := by
  intro s l' p off pos ht
  simp only [JitMemory.modifyLabel] at ht
  split at ht
  · rename_i hl
    rw [Res.state_ok, targets_modify s l _ l' hl] at ht
    split at ht
    · rename_i e; subst e
      have := h _ p off pos ht
      simpa only [targets, List.getElem?_eq_getElem hl] using this
    · exact ht
  · exact ht

theorem NoRel.emitRes (p bs) : NoRel (emitRes p bs) := by
  refine .of_labels fun s => ?_
  simp only [Monoasm.emitRes]
  split <;> rfl

theorem NoRel.emitl (p v) : NoRel (MemPage.emitl p v) := by
  rw [show MemPage.emitl p v = Monoasm.emitRes p (le32 v) from funext fun s => emitl_run p v s]; exact .emitRes _ _

theorem NoRel.emitb (p v) : NoRel (MemPage.emitb p v) := by
  rw [show MemPage.emitb p v = Monoasm.emitRes p [v] from funext fun s => emitb_run p v s]; exact .emitRes _ _

theorem NoRel.emitq (p v) : NoRel (MemPage.emitq p v) := .bind (.emitl _ _) fun _ => .emitl _ _

theorem NoRel.emitZeros (p n) : NoRel (emitZeros p n) := by
  induction n with
  | zero => exact .of_labels fun _ => rfl
  | succ n ih => exact .bind (.emitb _ _) fun _ => ih

theorem NoRel.bind_label_with_page (p l) : NoRel (bind_label_with_page p l) := by
  refine .bind (.of_labels fun s => ?_) fun _ => .bind (.of_labels fun _ => rfl) fun _ => .modifyLabel fun _ _ _ _ h => h
  simp only [checkPage]; split <;> rfl

theorem NoRel.resolveOne (p c l) : NoRel (resolveOne p c l) := by
  cases c with
  | u64 v => exact .bind (.of_labels fun _ => rfl) fun _ => .bind (.bind_label_with_page _ _) fun _ => .emitq _ _
  | u32 v => exact .bind (.of_labels fun _ => rfl) fun _ => .bind (.bind_label_with_page _ _) fun _ => .emitl _ _
  | bytes n => exact .bind (.of_labels fun _ => rfl) fun _ => .bind (.bind_label_with_page _ _) fun _ => .emitZeros _ _
  | absAddress x =>
    exact .bind (.of_labels fun _ => rfl) fun _ => .bind (.bind_label_with_page _ _) fun _ =>
      .bind (.bind (.of_labels fun _ => rfl) fun _ => .modifyLabel fun _ _ _ _ h => by simpa using h) fun _ => .emitq _ _
  | align8 => exact .bind (.of_labels fun _ => rfl) fun _ => .bind_label_with_page _ _

theorem NoRel.resolveList (p cs) : NoRel (resolveList p cs) := by
  induction cs with
  | nil => exact .of_labels fun _ => rfl
  | cons c cs ih => exact .bind (.resolveOne _ _ _) fun _ => ih

theorem NoRel.placeAll : NoRel placeAll := by
  have h1 : ∀ id, NoRel (resolveConstantsOf id) := fun id =>
    .bind (.of_labels fun _ => rfl) fun _ => .bind (.of_labels fun _ => rfl) fun _ => .resolveList _ _
  have h2 : ∀ id, NoRel (resolveDataOf id) := fun id =>
    .bind (.of_labels fun _ => rfl) fun _ => .bind (.of_labels fun _ => rfl) fun _ => .resolveList _ _
  exact .bind (.bind (h1 0) fun _ => h1 1) fun _ => .bind (h2 0) fun _ => h2 1

theorem labels_bind {m : M α} {f : α → M β} (hm : ∀ s, (m s).state.labels = s.labels) (hf : ∀ a s, (f a s).state.labels = s.labels) (s) :
    ((m >>= f) s).state.labels = s.labels := by
  have := hm s
  rw [M.bind_def]
  cases e : m s with
  | ok a s1 => rw [e] at this; exact (hf a s1).trans this
  | panic er s1 => rw [e] at this; exact this

theorem fillLabels_labels (is s) : (fillLabels is s).state.labels = s.labels := by
  have h1 : ∀ a t s, (fillTarget a t s).state.labels = s.labels := by
    intro a t s
    cases t with
    | rel p off pos =>
      simp only [fillTarget, M.bind_def, M.get]
      cases i32TryFromInt ((a : Int) - (((s.pages p).contents + pos + off.toNat : Nat) : Int)) with
      | some d =>
        show (MemPage.write32 p pos d s).state.labels = _
        rw [write32_run, writes_run]; split <;> rfl
      | none => rfl
    | abs p pos => simp only [fillTarget]; rw [write64_run, writes_run]; split <;> rfl
  have h2 : ∀ a ts s, (fillTargets a ts s).state.labels = s.labels := by
    intro a ts
    induction ts with
    | nil => intro s; rfl
    | cons t ts ih => exact labels_bind (h1 a t) fun _ => ih
  have h3 : ∀ i s, (fillLabel i s).state.labels = s.labels := by
    intro i s
    simp only [fillLabel]
    cases i.loc with
    | none => rfl
    | some pc => exact labels_bind (fun _ => rfl) (fun _ => labels_bind (h2 _ _) fun _ _ => rfl) s
  induction is generalizing s with
  | nil => rfl
  | cons i is ih => exact labels_bind (h3 i) (fun _ => labels_bind ih fun _ _ => rfl) s

theorem NoRel.fill_relocs : NoRel fill_relocs := by
  intro s l p off pos ht
  cases e : JitMemory.fill_relocs s with
  | ok u s1 =>
    rw [e] at ht
    simp only [targets, Res.state_ok, fill_relocs_labels e, List.getElem?_map] at ht
    simp only [targets]
    cases e3 : s.labels[l]? with
    | none => rw [e3] at ht; exact ht
    | some i =>
      rw [e3] at ht
      simp only [Option.map_some, LabelInfo.filled] at ht
      split at ht
      · simp at ht
      · exact ht
  | panic er s1 =>
    have e0 : JitMemory.fill_relocs s = (fillLabels s.labels >>= fun r => M.modify fun s => { s with labels := r }) { s with labels := [] } := rfl
    have hl : s1.labels = [] := by
      rw [e0, M.bind_def] at e
      cases e1 : fillLabels s.labels { s with labels := [] } with
      | ok r s2 => rw [e1] at e; cases e
      | panic er' s2 =>
        have := fillLabels_labels s.labels { s with labels := [] }
        rw [e1] at e this
        cases e
        exact this
    rw [e] at ht
    simp [targets, hl] at ht

theorem NoRel.finalize : NoRel finalize := by
  rw [finalize_placeAll]
  exact .bind (.of_labels fun _ => rfl) fun _ => .bind .placeAll fun _ =>
    .bind (.of_labels fun _ => rfl) fun _ => .bind .fill_relocs fun _ => .of_labels fun _ => rfl

/-- The bytes of an object that has been placed are complete. -/
theorem sealed_object {s s' : JitMemory} (hi : HInv base s) (h : JitMemory.finalize s = .ok () s') {p d l} (hw : (p, d, l) ∈ objects s)
    (hx : ∀ x, d ≠ .absAddress x) {pos : Nat} (hl : s'.locOf l = some (p, pos)) {i : Nat} (hlt : i < d.size) : Sealed s' p (pos + i) := by
  have F := finalize_hinv hi h
  obtain ⟨pos', e, h1, h2, h3, h4, -⟩ := F.placed p d l hw
  rw [hl] at e
  cases e
  have hs := (h4 hx).2 i hlt
  refine ⟨hs.1, fun l' u hu hc => ?_⟩
  by_cases hlu : Live u
  · exact hs.2 l' u hu hlu hc
  have hcap := F.inv.counter p
  obtain ⟨c1, c2, c3⟩ := hc
  have hp4 : PAGE_SIZE % 8 = 0 := by decide
  have hal : pos % 4 = 0 := by
    cases d <;> simp only [DataType.align] at h3 <;> omega
  have hcc : Spec.cursor s' p ≤ PAGE_SIZE := hcap
  cases u with
  | rel q off c =>
    have := NoRel.finalize s l' q off c (by rw [h]; exact hu)
    have hlow := hi.slots.low l' _ this
    simp only [TargetType.pos, TargetType.page, TargetType.size, Live] at *
    subst c1
    omega
  | abs q c =>
    rcases F.slots.aligned l' _ hu with e | e <;> simp only [TargetType.pos, TargetType.page, TargetType.size, Live] at *
    · omega
    · omega

/-- The bytes of the object stay. -/
theorem object_stays {s s' : JitMemory} (ha : Alloc base) (hi : HInv base s) (hfin : JitMemory.finalize s = .ok () s') {p d l}
    (hw : Waits s p d l) (hx : ∀ x, d ≠ .absAddress x) {a} (hl : HasAddress s' l a) {h : List Op} (hk : SparesRange a d.size s' h) :
    Spec.bytes (runCaught h s').mem a d.size = d.value := by
  have F := finalize_hinv hi hfin
  obtain ⟨q, c, e1, rfl⟩ := (hasAddress_iff F.inv ha.pos).1 hl
  obtain ⟨pos, e2, h1, h2, h3, h4, -⟩ := F.placed p d l ((waits_iff hi).1 hw)
  rw [e1] at e2
  cases e2
  have e3 := (h4 hx).1
  rw [F.inv.contents] at e3
  rw [← e3]
  refine mem_bytes_congr fun i hi2 => ?_
  have := (sealed_caught F.inv (sealed_object hi hfin ((waits_iff hi).1 hw) hx e1 hi2)
    (spares_range F.inv (by simp only [addrOf]; omega) (by simp only [addrOf]; omega) hk)).2
  simp only [byteAt, (inv_caught F.inv h).contents, F.inv.contents] at this
  simpa only [addrOf, Nat.add_assoc] using this

/-! ### Cursors -/

/-- Whatever the outcome, cursors do not go back. -/
def Climbs (base : Nat) {α} (m : M α) : Prop :=
  ∀ s, Inv base s → Inv base (m s).state ∧ ∀ p, cursor s p ≤ cursor (m s).state p

theorem Climbs.of_grows {m : M α} (h : Grows base m) : Climbs base m := fun s hi => ⟨(h s hi).1, (h s hi).2.cursor⟩

theorem Climbs.bind {m : M α} {f : α → M β} (hm : Climbs base m) (hf : ∀ a, Climbs base (f a)) : Climbs base (m >>= f) := by
  intro s hi
  have h1 := hm s hi
  rw [M.bind_def]
  cases e : m s with
  | ok a s1 =>
    rw [e] at h1
    have h2 := hf a s1 h1.1
    exact ⟨h2.1, fun p => Nat.le_trans (h1.2 p) (h2.2 p)⟩
  | panic er s1 => rw [e] at h1; exact h1

theorem Climbs.forPages {f : MemPage → MemPage} (hf : ∀ pg, (f pg).contents = pg.contents ∧ (f pg).counter = pg.counter
    ∧ (f pg).constants = pg.constants ∧ (f pg).data = pg.data) : Climbs base (forPages f) := by
  intro s hi
  obtain ⟨s', h⟩ : ∃ s', JitMemory.forPages f s = .ok () s' := ⟨_, rfl⟩
  have m := sim_forPages hf h
  rw [h]
  exact ⟨m.inv hi, fun p => by rw [Res.state_ok, m.cursor]; exact Nat.le_refl _⟩

theorem Climbs.fill_relocs : Climbs base fill_relocs := fun s hi => by
  refine ⟨(safe_fill_relocs (base := base) (ro := False) (ps := fun _ => True) (fun _ => trivial) s hi trivial).1.inv, fun p => ?_⟩
  have k := pokes_fillLabels (hi.setLabels (ls := []) (by simp)) s.labels
  have e0 : JitMemory.fill_relocs s = (fillLabels s.labels >>= fun r => M.modify fun s => { s with labels := r }) { s with labels := [] } := rfl
  have hs := congrArg JitMemory.pages k.same
  rw [e0, M.bind_def]
  cases e1 : fillLabels s.labels { s with labels := [] } with
  | ok r s1 => rw [e1] at hs; simp only [cursor, M.modify, Res.state_ok] at *; rw [hs]; exact Nat.le_refl _
  | panic er s1 => rw [e1] at hs; simp only [cursor, Res.state_panic] at *; rw [hs]; exact Nat.le_refl _

theorem Climbs.finalize : Climbs base finalize := by
  rw [finalize_placeAll]
  exact .bind (.forPages fun _ => ⟨rfl, rfl, rfl, rfl⟩) fun _ => .bind (.of_grows .placeAll) fun _ =>
    .bind (.forPages fun _ => ⟨rfl, rfl, rfl, rfl⟩) fun _ => .bind .fill_relocs fun _ => .forPages fun _ => ⟨rfl, rfl, rfl, rfl⟩

/-- Cursors do not go back in any history. -/
theorem cursor_up {s : JitMemory} (hi : Inv base s) (h : List Op) (p : Page) : cursor s p ≤ cursor (runCaught h s) p := by
  induction h generalizing s with
  | nil => exact Nat.le_refl _
  | cons op ops ih =>
    rw [runCaught_cons]
    refine Nat.le_trans ?_ (ih (inv_op hi op))
    by_cases hr : ∃ l off, op = .save_reloc l off
    · obtain ⟨l, off, rfl⟩ := hr
      simp only [Op.run, save_reloc_run]
      split <;> exact Nat.le_refl _
    · rcases op_cases op (fun l off e => hr ⟨l, off, e⟩) with ha | hq | rfl
      · exact (Grows.op ha s hi).2.cursor p
      · obtain ⟨m, e, -⟩ := pokes_state hq s
        rw [e]; exact Nat.le_refl _
      · exact (Climbs.finalize s hi).2 p

/-! ### The two ways to fail -/

/-- A field does not fit its page: no labels are left. -/
structure Unfilled (s s' : JitMemory) : Prop where
  labels : s'.labels = []
  cursor : ∀ p, Spec.cursor s p ≤ Spec.cursor s' p
  pages : ∀ p, p < 3 → (s'.pages p).code_block
      = (s.pages p).code_block ++ [((s.pages p).code_block_top, Spec.cursor s p, Spec.cursor s' p)]
    ∧ (s'.pages p).code_block_top = (s.pages p).code_block_top ∧ (s'.pages p).code_len = Spec.cursor s p
    ∧ (p < 2 → (s'.pages p).constants = [] ∧ (s'.pages p).data = [])

theorem finalize_failed {s s' : JitMemory} {e} (hi : Inv base s) (h : finalize s = .panic e s') :
    (¬ (HasRoom s ∧ NamesKnown s) ∧ Unplaced s s') ∨ (HasRoom s ∧ NamesKnown s ∧ ¬ FieldsFit s ∧ Unfilled s s') := by
  obtain ⟨sa, ha⟩ : ∃ sa, JitMemory.forPages openBlock s = .ok () sa := ⟨_, rfl⟩
  have ma : Sim s sa := sim_forPages (f := openBlock) (fun _ => ⟨rfl, rfl, rfl, rfl⟩) ha
  have hia := ma.inv hi
  have hpa : ∀ p, p < 3 → sa.pages p = openBlock (s.pages p) := by intro p hp; cases ha; simp [hp]
  have hpl := placeAll_iff ma hia
  have g := (Grows.placeAll (base := base)) sa hia
  have h' := h
  rw [finalize_placeAll, ok_bind ha] at h
  cases eb : placeAll sa with
  | panic er sb =>
    rw [panic_bind eb] at h
    cases h
    refine .inl ⟨fun hh => ?_, unplaced_of hi ha eb⟩
    obtain ⟨x, hx⟩ := hpl.2 hh
    rw [eb] at hx; cases hx
  | ok u sb =>
    rw [ok_bind eb] at h
    rw [eb] at g
    right
    obtain ⟨hr, hn⟩ := hpl.1 ⟨sb, eb⟩
    refine ⟨hr, hn, fun hff => ?_, ?_⟩
    · obtain ⟨x, hx⟩ := (finalize_iff hi).2 ⟨hr, hn, hff⟩
      rw [h'] at hx; cases hx
    obtain ⟨sc, hc⟩ : ∃ sc, JitMemory.forPages closeBlock sb = .ok () sc := ⟨_, rfl⟩
    have mc : Sim sb sc := sim_forPages (f := closeBlock) (fun _ => ⟨rfl, rfl, rfl, rfl⟩) hc
    have hpc : ∀ p, p < 3 → sc.pages p = closeBlock (sb.pages p) := by intro p hp; cases hc; simp [hp]
    rw [ok_bind hc] at h
    cases ef : JitMemory.fill_relocs sc with
    | ok u sd => rw [ok_bind ef] at h; cases h
    | panic er sd =>
      rw [panic_bind ef] at h
      cases h
      obtain ⟨f1, f2, f3, f4⟩ := fill_failed (mc.inv g.1) ef
      have hcur : ∀ p, Spec.cursor s' p = Spec.cursor sb p := fun p => by
        rw [← mc.cursor]; simp only [Spec.cursor, f2]
      refine ⟨f1, fun p => ?_, fun p hp => ?_⟩
      · rw [hcur, ← ma.cursor]; exact g.2.cursor p
      · have h1 := g.2.code_block p
        have h2 := g.2.code_block_top p
        have h3 := g.2.code_len p
        rw [Res.state_ok, hpa p hp] at h1 h2 h3
        rw [f2, hpc p hp, hcur]
        refine ⟨?_, ?_, ?_, fun hp2 => ?_⟩
        · simp only [closeBlock, h1, openBlock, List.length_append, List.length_singleton, Nat.add_sub_cancel, modify_last]
          rfl
        · exact h2
        · exact h3
        · simp only [placeAll, resolve_constants, resolve_data, bind_assoc] at eb
          obtain ⟨_, s1, h1, eb⟩ := bind_ok eb
          obtain ⟨_, s2, h2, eb⟩ := bind_ok eb
          obtain ⟨_, s3, h3, h4⟩ := bind_ok eb
          obtain ⟨d1, l1⟩ := drain_constants hia (by decide) h1
          obtain ⟨d2, l2⟩ := drain_constants d1.inv (by decide) h2
          obtain ⟨d3, l3⟩ := drain_data d2.inv h3
          obtain ⟨d4, l4⟩ := drain_data d3.inv h4
          show (sb.pages p).constants = [] ∧ (sb.pages p).data = []
          rw [(l4 p).1, (l4 p).2, (l3 p).1, (l3 p).2, (l2 p).1, (l1 p).1]
          rcases page_lt_two hp2 with rfl | rfl <;> simp

end
end Monoasm
