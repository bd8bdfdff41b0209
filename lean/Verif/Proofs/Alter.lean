import Verif.Proofs.Trial
import Verif.Proofs.Retarget
/-
  Two runs of a history that differ in the label of one jump.
-/

set_option linter.unusedSimpArgs false

namespace Monoasm
open JitMemory Spec

/-- The record of a label without the field `t`. -/
def strip (t : TargetType) (i : LabelInfo) : LabelInfo := { i with target := i.target.filter (· ≠ t) }

/-- The states are the same, except for the label to which the field `t`, the four bytes at `x`,
    belongs, and the contents of the field. -/
structure Alter (t : TargetType) (x : Nat) (s1 s2 : JitMemory) : Prop where
  page : s1.page = s2.page
  pages : s1.pages = s2.pages
  labels : s1.labels.map (strip t) = s2.labels.map (strip t)
  mem : ∀ a, ¬ (x ≤ a ∧ a < x + 4) → s1.mem a = s2.mem a

/-- What succeeds in the first state succeeds in the second, with the same effect. -/
def Agrees (t : TargetType) (x : Nat) {α : Type} (m : M α) : Prop :=
  ∀ s1 s2 a t1, Alter t x s1 s2 → m s1 = .ok a t1 → ∃ t2, m s2 = .ok a t2 ∧ Alter t x t1 t2

section
variable {t : TargetType} {x : Nat} {s1 s2 : JitMemory}

theorem Alter.refl (t x) (s : JitMemory) : Alter t x s s := ⟨rfl, rfl, rfl, fun _ _ => rfl⟩

theorem Alter.len (h : Alter t x s1 s2) : s1.labels.length = s2.labels.length := by
  have := congrArg List.length h.labels
  simpa using this

theorem Alter.info (h : Alter t x s1 s2) (l : Nat) : (s1.labels[l]?).map (strip t) = (s2.labels[l]?).map (strip t) := by
  have := congrArg (fun ls => ls[l]?) h.labels
  simpa using this

theorem Alter.locOf (h : Alter t x s1 s2) (l) : s2.locOf l = s1.locOf l := by
  have := h.info l
  simp only [JitMemory.locOf]
  cases e1 : s1.labels[l]? <;> cases e2 : s2.labels[l]? <;> simp only [e1, e2, Option.map_none, Option.map_some] at this ⊢
  · cases this
  · cases this
  · simp only [Option.some.injEq] at this
    exact (congrArg LabelInfo.loc this).symm

theorem Agrees.pure {α} (a : α) : Agrees t x (Pure.pure a : M α) := by
  intro s1 s2 b t1 h e
  cases e
  exact ⟨s2, rfl, h⟩

theorem Agrees.bind {α β} {m : M α} {f : α → M β} (hm : Agrees t x m) (hf : ∀ a, Agrees t x (f a)) : Agrees t x (m >>= f) := by
  intro s1 s2 b t1 h e
  obtain ⟨a, u1, e1, e2⟩ := bind_ok e
  obtain ⟨u2, e3, h1⟩ := hm _ _ _ _ h e1
  obtain ⟨t2, e4, h2⟩ := hf a _ _ _ _ h1 e2
  exact ⟨t2, (ok_bind e3).trans e4, h2⟩

theorem Agrees.panic {α} (e) : Agrees t x (M.panic e : M α) := by
  intro s1 s2 b t1 h e; cases e

theorem Agrees.assert (b) : Agrees t x (M.assert b) := by
  intro s1 s2 c t1 h e
  simp only [M.assert] at e ⊢
  split at e <;> cases e
  rename_i hb
  rw [if_pos hb]
  exact ⟨s2, rfl, h⟩

theorem Alter.upd (h : Alter t x s1 s2) (a v) :
    Alter t x { s1 with mem := upd s1.mem a v } { s2 with mem := upd s2.mem a v } :=
  ⟨h.page, h.pages, h.labels, fun y hy => by
    simp only [Monoasm.upd]
    split
    · rfl
    · exact h.mem y hy⟩

theorem Alter.updPage (h : Alter t x s1 s2) (p f) : Alter t x (s1.updPage p f) (s2.updPage p f) :=
  ⟨h.page, by simp only [JitMemory.updPage, h.pages], h.labels, h.mem⟩

theorem Agrees.write (p pos v) : Agrees t x (MemPage.write p pos v) := by
  intro s1 s2 b t1 h e
  simp only [MemPage.write] at e ⊢
  split at e <;> cases e
  rename_i hp
  rw [if_neg hp]
  have := h.upd ((s1.pages p).contents + pos) v
  rw [show (s1.pages p).contents = (s2.pages p).contents by rw [h.pages]] at this ⊢
  exact ⟨_, rfl, this⟩

theorem Agrees.counterOf (p) : Agrees t x (MemPage.counterOf p) := by
  intro s1 s2 b t1 h e
  cases e
  exact ⟨s2, by rw [MemPage.counterOf, h.pages], h⟩

theorem Agrees.setCounter (p c) : Agrees t x (MemPage.setCounter p c) := by
  intro s1 s2 b t1 h e
  cases e
  exact ⟨_, rfl, h.updPage p _⟩

theorem Agrees.cur : Agrees t x JitMemory.cur := by
  intro s1 s2 b t1 h e
  cases e
  exact ⟨s2, by rw [JitMemory.cur, h.page], h⟩

theorem Agrees.align_page (p) : Agrees t x (MemPage.align_page p) := .bind (.counterOf p) fun _ => .setCounter _ _
theorem Agrees.align16 (p) : Agrees t x (MemPage.align16 p) := .bind (.counterOf p) fun _ => .setCounter _ _
theorem Agrees.align8 (p) : Agrees t x (MemPage.align8 p) := .bind (.counterOf p) fun _ => .setCounter _ _
theorem Agrees.align4 (p) : Agrees t x (MemPage.align4 p) := .bind (.counterOf p) fun _ => .setCounter _ _
theorem Agrees.emitb (p v) : Agrees t x (MemPage.emitb p v) :=
  .bind (.counterOf p) fun _ => .bind (.write _ _ _) fun _ => .setCounter _ _
theorem Agrees.emitw (p v) : Agrees t x (MemPage.emitw p v) :=
  .bind (.counterOf p) fun _ => .bind (.write _ _ _) fun _ => .bind (.write _ _ _) fun _ => .setCounter _ _
theorem Agrees.emitl (p v) : Agrees t x (MemPage.emitl p v) :=
  .bind (.counterOf p) fun _ => .bind (.write _ _ _) fun _ => .bind (.write _ _ _) fun _ => .bind (.write _ _ _) fun _ =>
    .bind (.write _ _ _) fun _ => .setCounter _ _
theorem Agrees.emitq (p v) : Agrees t x (MemPage.emitq p v) := .bind (.emitl _ _) fun _ => .emitl _ _

theorem Agrees.select_page (p) : Agrees t x (JitMemory.select_page p) := .bind (.assert _) fun _ => by
  intro s1 s2 b t1 h e
  cases e
  exact ⟨_, rfl, rfl, h.pages, h.labels, h.mem⟩

theorem Agrees.checkPage (p) : Agrees t x (Monoasm.checkPage p) := by
  intro s1 s2 c t1 h e
  simp only [Monoasm.checkPage] at e ⊢
  split at e <;> cases e
  rename_i hb
  rw [if_pos hb]
  exact ⟨s2, rfl, h⟩

theorem map_modify_of {α β} (g : α → β) (f : α → α) (f' : β → β) (h : ∀ a, g (f a) = f' (g a)) (xs : List α) (l : Nat) :
    (xs.modify l f).map g = (xs.map g).modify l f' := by
  apply List.ext_getElem?
  intro n
  simp only [List.getElem?_map, List.getElem?_modify]
  cases xs[n]? <;> simp
  split <;> simp [h]

theorem Agrees.modifyLabel (l) {f : LabelInfo → LabelInfo} (f' : LabelInfo → LabelInfo) (hf : ∀ i, strip t (f i) = f' (strip t i)) :
    Agrees t x (JitMemory.modifyLabel l f) := by
  intro s1 s2 b t1 h e
  simp only [JitMemory.modifyLabel] at e ⊢
  split at e <;> cases e
  rename_i hl
  rw [if_pos (by rwa [← h.len])]
  refine ⟨_, rfl, h.page, h.pages, ?_, h.mem⟩
  simp only
  rw [map_modify_of (strip t) f f' hf, map_modify_of (strip t) f f' hf, h.labels]

theorem Agrees.setLoc (l v) : Agrees t x (JitMemory.modifyLabel l fun i => { i with loc := v }) :=
  .modifyLabel l (fun i => { i with loc := v }) fun _ => rfl

theorem Agrees.addTarget (l u) : Agrees t x (JitMemory.modifyLabel l fun i => { i with target := i.target ++ [u] }) :=
  .modifyLabel l (fun i => { i with target := i.target ++ [u].filter (· ≠ t) }) fun i => by simp only [strip, List.filter_append]

theorem Agrees.label : Agrees t x JitMemory.label := by
  intro s1 s2 b t1 h e
  cases e
  rw [h.len]
  exact ⟨_, rfl, h.page, h.pages, by simp only [List.map_append, h.labels], h.mem⟩

theorem Agrees.pushConstant (d l) : Agrees t x (JitMemory.pushConstant d l) := by
  intro s1 s2 b t1 h e
  cases e
  exact ⟨_, rfl, by simp only [h.page]; exact h.updPage _ _⟩

theorem Agrees.pushData (d l) : Agrees t x (JitMemory.pushData d l) := by
  intro s1 s2 b t1 h e
  cases e
  exact ⟨_, rfl, by simp only [h.page]; exact h.updPage _ _⟩

theorem Agrees.newCall (c : NewCall) : Agrees t x c.run := by
  cases c
  case label => exact .label
  all_goals
    refine .bind .label fun _ => .bind ?_ fun _ => .pure _
    first | exact .pushConstant _ _ | exact .pushData _ _

theorem Agrees.bind_label (l) : Agrees t x (JitMemory.bind_label l) :=
  .bind .cur fun _ => .bind (.counterOf _) fun _ => .setLoc _ _

theorem Agrees.bind_label_with_page (p l) : Agrees t x (JitMemory.bind_label_with_page p l) :=
  .bind (.checkPage p) fun _ => .bind (.counterOf _) fun _ => .setLoc _ _

theorem Agrees.save_reloc (l off) : Agrees t x (JitMemory.save_reloc l off) :=
  .bind .cur fun _ => .bind (.counterOf _) fun _ => .addTarget _ _

theorem Agrees.items (its : List Item) : Agrees t x (runItems its) := by
  induction its with
  | nil => exact .pure _
  | cons i is ih =>
    refine .bind ?_ fun _ => ih
    cases i with
    | i8 v => exact .bind .cur fun _ => .emitb _ _
    | i16 v => exact .bind .cur fun _ => .emitw _ _
    | i32 v => exact .bind .cur fun _ => .emitl _ _
    | i64 v => exact .bind .cur fun _ => .emitq _ _
    | rel l off => exact .bind (.save_reloc l off) fun _ => .bind .cur fun _ => .emitl _ _
    | bind l => exact .bind_label l
    | fail e => exact .panic e

theorem Agrees.pageCall (p) (c : PageCall) : Agrees t x (c.run p) := by
  cases c with
  | align_page => exact .align_page p
  | align16 => exact .align16 p
  | align8 => exact .align8 p
  | align4 => exact .align4 p
  | emitb v => exact .emitb p v
  | emitw v => exact .emitw p v
  | emitl v => exact .emitl p v
  | emitq v => exact .emitq p v
  | poke pos v => exact .write _ _ _

/-- Calls other than `finalize` and patches. -/
theorem Agrees.op {op : Op} (hf : op ≠ .finalize) (ht : tame op = true) : Agrees t x op.run := by
  cases op with
  | select_page p => exact .select_page p
  | cur c => exact .bind .cur fun _ => .pageCall _ c
  | page p c => exact .bind (.checkPage p) fun _ => .pageCall p c
  | emit bs => rw [Op.run_items (op := .emit bs) rfl]; exact .items _
  | new c => exact .bind (.newCall c) fun _ => .pure _
  | bind_label l => exact .bind_label l
  | bind_label_with_page p l => exact .bind_label_with_page p l
  | save_reloc l off => exact .save_reloc l off
  | enc c => rw [Op.run_items (op := .enc c) rfl]; exact .items _
  | inst i =>
    obtain ⟨its, e⟩ : ∃ its, (Op.inst i).itemsOf = some its := by
      simp only [Op.itemsOf]; split <;> exact ⟨_, rfl⟩
    rw [Op.run_items e]; exact .items _
  | finalize => exact absurd rfl hf
  | apply_jmp_patch p d => cases ht
  | apply_jmp_patch_address a d => cases ht

/-! ### `finalize` -/

theorem Agrees.forPages (f) : Agrees t x (JitMemory.forPages f) := by
  intro s1 s2 b t1 h e
  cases e
  exact ⟨_, rfl, h.page, by simp only [h.pages], h.labels, h.mem⟩

theorem Agrees.emitZeros (p n) : Agrees t x (JitMemory.emitZeros p n) := by
  induction n with
  | zero => exact .pure _
  | succ n ih => exact .bind (.emitb p 0) fun _ => ih

theorem Agrees.resolveOne (p d l) : Agrees t x (JitMemory.resolveOne p d l) := by
  cases d with
  | u64 v => exact .bind (.align16 p) fun _ => .bind (.bind_label_with_page p l) fun _ => .emitq p v
  | u32 v => exact .bind (.align4 p) fun _ => .bind (.bind_label_with_page p l) fun _ => .emitl p v
  | bytes n => exact .bind (.align16 p) fun _ => .bind (.bind_label_with_page p l) fun _ => .emitZeros p n
  | absAddress y =>
    exact .bind (.align8 p) fun _ => .bind (.bind_label_with_page p l) fun _ =>
      .bind (.bind (.counterOf _) fun _ => .addTarget _ _) fun _ => .emitq p 0
  | align8 => exact .bind (.align8 p) fun _ => .bind_label_with_page p l

theorem Agrees.resolveList (p xs) : Agrees t x (JitMemory.resolveList p xs) := by
  induction xs with
  | nil => exact .pure _
  | cons y ys ih => exact .bind (.resolveOne p y.1 y.2) fun _ => ih

theorem Agrees.resolveConstantsOf (p) : Agrees t x (JitMemory.resolveConstantsOf p) := by
  intro s1 s2 b t1 h e
  simp only [JitMemory.resolveConstantsOf] at e ⊢
  rw [ok_bind (m := M.get) (s := s1) rfl] at e
  rw [ok_bind (m := M.get) (s := s2) rfl, ← h.pages]
  refine Agrees.bind ?_ (fun _ => .resolveList p _) s1 s2 b t1 h e
  intro s1 s2 b t1 h e
  cases e
  exact ⟨_, rfl, h.updPage _ _⟩

theorem Agrees.resolveDataOf (p) : Agrees t x (JitMemory.resolveDataOf p) := by
  intro s1 s2 b t1 h e
  simp only [JitMemory.resolveDataOf] at e ⊢
  rw [ok_bind (m := M.get) (s := s1) rfl] at e
  rw [ok_bind (m := M.get) (s := s2) rfl, ← h.pages]
  refine Agrees.bind ?_ (fun _ => .resolveList DATA_PAGE _) s1 s2 b t1 h e
  intro s1 s2 b t1 h e
  cases e
  exact ⟨_, rfl, h.updPage _ _⟩

/-- Fields that fit are filled in. -/
theorem fillTarget_fits {src u} {s : JitMemory} (h1 : Live u) (h2 : FitsRel (contentsOf s) src u) :
    fillTarget src u s = .ok () { s with mem := putBytes s.mem (contentsOf s u.page + u.pos) (slotBytes (contentsOf s) src u) } := by
  cases u with
  | rel p off pos =>
    simp only [fillTarget]
    rw [ok_bind (s1 := s) (by rfl)]
    simp only [i32TryFromInt]
    have h2 : -2147483648 ≤ (src : Int) - ((s.pages p).contents + pos + off.toNat : Nat)
        ∧ (src : Int) - ((s.pages p).contents + pos + off.toNat : Nat) ≤ 2147483647 := h2
    rw [if_pos h2]
    simp only [write32_run, writes_run]
    rw [if_pos (.inl h1)]
    simp only [slotBytes, littleEndian_32]; rfl
  | abs p pos =>
    simp only [fillTarget, write64_run, writes_run]
    rw [if_pos (.inl h1)]
    simp only [slotBytes, littleEndian_64]; rfl

theorem fillTargets_fits {src us} {s : JitMemory} (h : ∀ u ∈ us, Live u ∧ FitsRel (contentsOf s) src u) :
    fillTargets src us s = .ok () { s with mem := fillMem (contentsOf s) (us.map fun t => (src, t)) s.mem } := by
  induction us generalizing s with
  | nil => rfl
  | cons u us ih =>
    simp only [fillTargets]
    rw [ok_bind (fillTarget_fits (h u (by simp)).1 (h u (by simp)).2)]
    exact ih (s := { s with mem := putBytes s.mem (contentsOf s u.page + u.pos) (slotBytes (contentsOf s) src u) })
      fun v hv => h v (by simp [hv])

theorem fillLabel_fits {i} {s : JitMemory} (h : ∀ j ∈ jobsOf (contentsOf s) i, Live j.2 ∧ FitsRel (contentsOf s) j.1 j.2) :
    fillLabel i s = .ok i.filled { s with mem := fillMem (contentsOf s) (jobsOf (contentsOf s) i) s.mem } := by
  simp only [fillLabel, LabelInfo.filled]
  simp only [jobsOf] at h ⊢
  cases e : i.loc with
  | none => rfl
  | some pc =>
    simp only [e] at h ⊢
    rw [ok_bind (s1 := s) (by rfl)]
    have := fillTargets_fits (s := s) (src := (s.pages pc.1).contents + pc.2) (us := i.target)
      fun u hu => h (_, u) (List.mem_map.2 ⟨u, hu, rfl⟩)
    rw [ok_bind this]
    rfl

theorem fillLabels_fits {is} {s : JitMemory} (h : ∀ j ∈ is.flatMap (jobsOf (contentsOf s)), Live j.2 ∧ FitsRel (contentsOf s) j.1 j.2) :
    fillLabels is s = .ok (is.map LabelInfo.filled) { s with mem := fillMem (contentsOf s) (is.flatMap (jobsOf (contentsOf s))) s.mem } := by
  induction is generalizing s with
  | nil => rfl
  | cons i is ih =>
    simp only [fillLabels, List.flatMap_cons, fillMem_append, List.map_cons] at h ⊢
    rw [ok_bind (fillLabel_fits fun j hj => h j (List.mem_append.2 (.inl hj)))]
    have := ih (s := { s with mem := fillMem (contentsOf s) (jobsOf (contentsOf s) i) s.mem })
      fun j hj => h j (List.mem_append.2 (.inr hj))
    rw [ok_bind this]
    rfl

theorem fill_relocs_fits {s : JitMemory} (h : ∀ j ∈ jobs s, Live j.2 ∧ FitsRel (contentsOf s) j.1 j.2) :
    fill_relocs s = .ok () { s with labels := s.labels.map LabelInfo.filled, mem := fillMem (contentsOf s) (jobs s) s.mem } := by
  simp only [fill_relocs]
  rw [ok_bind (s1 := s) (by rfl), ok_bind (by rfl), ok_bind (fillLabels_fits (s := { s with labels := [] }) h)]
  rfl

theorem jobsOf_strip (contents : Page → Nat) (i : LabelInfo) :
    jobsOf contents (strip t i) = (jobsOf contents i).filter fun j => j.2 ≠ t := by
  simp only [jobsOf, strip]
  split
  · rw [List.filter_map]; rfl
  · rfl

theorem jobs_strip (s : JitMemory) : (jobs s).filter (fun j => j.2 ≠ t) = (s.labels.map (strip t)).flatMap (jobsOf (contentsOf s)) := by
  simp only [jobs, List.flatMap_map]
  generalize s.labels = ls
  induction ls with
  | nil => rfl
  | cons i is ih => simp only [List.flatMap_cons, List.filter_append, ih, jobsOf_strip]

/-- What is written depends on the place and the bytes alone. -/
theorem putBytes_same {m1 m2 : Nat → Byte} {b : Nat} (h : m1 b = m2 b) (a bs) : putBytes m1 a bs b = putBytes m2 a bs b := by
  induction bs generalizing m1 m2 a with
  | nil => exact h
  | cons v bs ih =>
    rw [putBytes_cons, putBytes_cons]
    refine ih ?_ _
    simp only [Monoasm.upd]
    split
    · rfl
    · exact h

/-- The field `t` matters only for its own bytes. -/
theorem fillMem_strip (contents : Page → Nat) (js : List (Nat × TargetType)) (hx : contents t.page + t.pos = x) (hz : t.size = 4)
    {m1 m2 : Nat → Byte} (hm : ∀ a, ¬ (x ≤ a ∧ a < x + 4) → m1 a = m2 a) (a) (ha : ¬ (x ≤ a ∧ a < x + 4)) :
    fillMem contents js m1 a = fillMem contents (js.filter fun j => j.2 ≠ t) m2 a := by
  induction js generalizing m1 m2 with
  | nil => exact hm a ha
  | cons j js ih =>
    by_cases e : j.2 = t
    · rw [List.filter_cons_of_neg (by simpa using e)]
      refine ih fun b hb => ?_
      rw [putBytes_out, hm b hb]
      rw [slotBytes_length, e, hx, hz]
      omega
    · rw [List.filter_cons_of_pos (by simpa using e)]
      exact ih fun b hb => putBytes_same (hm b hb) _ _

theorem strip_filled (i : LabelInfo) : strip t i.filled = (strip t i).filled := by
  obtain ⟨loc, tg⟩ := i
  cases loc <;> rfl

theorem Agrees.fill_relocs (hi : Inv base s1) (hx : base + PAGE_SIZE * t.page + t.pos = x) (hz : t.size = 4)
    (hl : Live t) (ht : ∃ p off pos, t = .rel p off pos ∧ p < 3 ∧ off.toNat ≤ 255) (h : Alter t x s1 s2) {t1}
    (e : JitMemory.fill_relocs s1 = .ok () t1) :
    ∃ t2, JitMemory.fill_relocs s2 = .ok () t2 ∧ Alter t x t1 t2 := by
  obtain ⟨h1, rfl⟩ := fill_relocs_run e
  have ec : contentsOf s2 = contentsOf s1 := funext fun p => by rw [contentsOf, contentsOf, h.pages]
  have ej : (jobs s2).filter (fun j => j.2 ≠ t) = (jobs s1).filter (fun j => j.2 ≠ t) := by
    rw [jobs_strip, jobs_strip, h.labels, ec]
  have hx' : contentsOf s1 t.page + t.pos = x := by rw [contentsOf, hi.contents]; exact hx
  have hfit : ∀ j ∈ jobs s2, Live j.2 ∧ FitsRel (contentsOf s2) j.1 j.2 := by
    rintro ⟨src, u⟩ hj
    by_cases e : u = t
    · subst e
      refine ⟨hl, ?_⟩
      obtain ⟨p, off, pos, rfl, hp, ho⟩ := ht
      obtain ⟨l, q, c, h3, -, rfl⟩ := mem_jobs.1 hj
      rw [h.locOf] at h3
      simp only [JitMemory.locOf, Option.bind_eq_some_iff] at h3
      obtain ⟨i, h4, h5⟩ := h3
      obtain ⟨hq, hc⟩ := hi.loc l i h4 q c h5
      have hpos : pos + 4 ≤ PAGE_SIZE := hl
      simp only [FitsRel, ec]
      simp only [← h.pages, contentsOf, hi.contents]
      have a1 : ∀ p : Nat, p < 3 → p = 0 ∨ p = 1 ∨ p = 2 := by omega
      clear hx hx' hz
      rw [PAGE_SIZE_eq] at *
      rcases a1 p hp with rfl | rfl | rfl <;> rcases a1 q hq with rfl | rfl | rfl <;> omega
    · have : (src, u) ∈ (jobs s2).filter (fun j => j.2 ≠ t) := List.mem_filter.2 ⟨hj, by simpa using e⟩
      rw [ej] at this
      rw [ec]
      exact h1 _ (List.mem_filter.1 this).1
  refine ⟨_, fill_relocs_fits hfit, h.page, h.pages, ?_, fun a ha => ?_⟩
  · simp only [List.map_map]
    have : strip t ∘ LabelInfo.filled = LabelInfo.filled ∘ strip t := funext strip_filled
    rw [this, ← List.map_map, ← List.map_map, h.labels]
  · simp only
    rw [fillMem_strip (contentsOf s1) (jobs s1) hx' hz h.mem a ha, ec, fillMem_strip (contentsOf s1) (jobs s2) hx' hz (fun _ _ => rfl) a ha, ej]

theorem agrees_finalize (hi : Inv base s1) (hx : base + PAGE_SIZE * t.page + t.pos = x) (hz : t.size = 4)
    (hl : Live t) (ht : ∃ p off pos, t = .rel p off pos ∧ p < 3 ∧ off.toNat ≤ 255) (h : Alter t x s1 s2) {t1}
    (e : finalize s1 = .ok () t1) : ∃ t2, finalize s2 = .ok () t2 ∧ Alter t x t1 t2 := by
  obtain ⟨sa, sr, sb, sc, sd, ha, hr, hb, hc, hd, he⟩ := finalize_split e
  have hic : Inv base sc := by
    have hS : Safe base False (fun _ => True) (do forPages openBlock; resolve_constants; resolve_data; forPages closeBlock) :=
      .bind (safe_forPages (fun _ => trivial) fun _ => ⟨rfl, rfl⟩) fun _ =>
        .bind (safe_resolve_constants fun _ => trivial) fun _ => .bind (safe_resolve_data fun _ => trivial) fun _ =>
          safe_forPages (fun _ => trivial) fun _ => ⟨rfl, rfl⟩
    have := (hS s1 hi trivial).1.inv
    rwa [ok_bind ha, ok_bind hr, ok_bind hb, hc] at this
  obtain ⟨ua, ha', h⟩ := Agrees.forPages _ _ _ _ _ h ha
  obtain ⟨ur, hr', h⟩ := Agrees.bind (.resolveConstantsOf 0) (fun _ => .resolveConstantsOf 1) _ _ _ _ h hr
  obtain ⟨ub, hb', h⟩ := Agrees.bind (.resolveDataOf 0) (fun _ => .resolveDataOf 1) _ _ _ _ h hb
  obtain ⟨uc, hc', h⟩ := Agrees.forPages _ _ _ _ _ h hc
  obtain ⟨ud, hd', h⟩ := Agrees.fill_relocs hic hx hz hl ht h hd
  obtain ⟨ue, he', h⟩ := Agrees.forPages _ _ _ _ _ h he
  refine ⟨ue, ?_, h⟩
  simp only [finalize]
  rw [ok_bind ha', ok_bind (m := resolve_constants) hr', ok_bind (m := resolve_data) hb', ok_bind hc', ok_bind hd', he']

end

/-! ### Trials -/

section
variable {t : TargetType} {x : Nat} {s1 s2 : JitMemory}

theorem Alter.boundB (h : Alter t x s1 s2) (l) : Spec.boundB s2 l = Spec.boundB s1 l := by
  rw [boundB_eq, boundB_eq, h.locOf]

theorem Alter.freshB (h : Alter t x s1 s2) (op) : Spec.freshB s2 op = Spec.freshB s1 op := by
  rw [Spec.freshB, Spec.freshB]
  split
  · rw [h.boundB, waitsB, waitsB, h.pages]
  · rfl

theorem trialFrom_alter {H : List Op} (hi : Inv base s1) (hx : base + PAGE_SIZE * t.page + t.pos = x) (hz : t.size = 4)
    (hl : Live t) (ht : ∃ p off pos, t = .rel p off pos ∧ p < 3 ∧ off.toNat ≤ 255) (hs : Alter t x s1 s2) {t1}
    (h : trialFrom s1 H = some t1) : ∃ t2, trialFrom s2 H = some t2 ∧ Alter t x t1 t2 := by
  induction H generalizing s1 s2 with
  | nil => cases h; exact ⟨s2, rfl, hs⟩
  | cons op ops ih =>
    rw [trialFrom] at h ⊢
    split at h
    · rename_i hc
      rw [hs.freshB, if_pos hc]
      simp only [Bool.and_eq_true] at hc
      split at h
      · rename_i u s1' e
        have hi' := inv_op hi op
        rw [e] at hi'
        have : ∃ s2', op.run s2 = .ok u s2' ∧ Alter t x s1' s2' := by
          by_cases hf : op = .finalize
          · subst hf
            exact agrees_finalize hi hx hz hl ht hs e
          · exact Agrees.op hf hc.1.1 _ _ _ _ hs e
        obtain ⟨s2', e2, hs'⟩ := this
        rw [e2]
        exact ih hi' hs' h
      · cases h
    · cases h

end
end Monoasm
