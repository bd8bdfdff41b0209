import Verif.Proofs.Outside
import Verif.Spec.Edits
/-
  Calls never read the code blocks: what they do does not depend on them, and `finalize` appends.
-/

namespace Monoasm
open JitMemory Spec

/-- The same except for the code blocks, and these differ in their beginnings `x`, `y` only; after them come
    `k` blocks in each of the three pages. -/
structure Twins (x y : Page → Blocks) (k : Nat) (s t : JitMemory) : Prop where
  same : SameApartBlocks s t
  blocks : ∀ p, ∃ z, (s.pages p).code_block = x p ++ z ∧ (t.pages p).code_block = y p ++ z ∧ (p < 3 → z.length = k)

/-- Two runs end in the same way, in states that are related by `R`. -/
def Both {α} (R : JitMemory → JitMemory → Prop) : Res α → Res α → Prop
  | .ok a s, .ok b t => a = b ∧ R s t
  | .panic e s, .panic f t => e = f ∧ R s t
  | _, _ => False

/-- `c` takes related states to related states. -/
def Lifts {α} (R Q : JitMemory → JitMemory → Prop) (c : M α) : Prop := ∀ s t, R s t → Both Q (c s) (c t)

/-- `c` does not look at the code blocks and does not change them. -/
def Deaf {α} (c : M α) : Prop := ∀ x y k, Lifts (Twins x y k) (Twins x y k) c

section
variable {α β : Type} {x y : Page → Blocks} {k : Nat} {s t : JitMemory}

theorem Twins.page (h : Twins x y k s t) : s.page = t.page := h.same.page
theorem Twins.labels (h : Twins x y k s t) : s.labels = t.labels := h.same.labels
theorem Twins.mem (h : Twins x y k s t) : s.mem = t.mem := h.same.mem
theorem Twins.contents (h : Twins x y k s t) (p) : (s.pages p).contents = (t.pages p).contents :=
  by have e := congrArg MemPage.contents (h.same.pages p); exact e
theorem Twins.counter (h : Twins x y k s t) (p) : (s.pages p).counter = (t.pages p).counter :=
  by have e := congrArg MemPage.counter (h.same.pages p); exact e
theorem Twins.constants (h : Twins x y k s t) (p) : (s.pages p).constants = (t.pages p).constants :=
  by have e := congrArg MemPage.constants (h.same.pages p); exact e
theorem Twins.data (h : Twins x y k s t) (p) : (s.pages p).data = (t.pages p).data :=
  by have e := congrArg MemPage.data (h.same.pages p); exact e
theorem Twins.code_len (h : Twins x y k s t) (p) : (s.pages p).code_len = (t.pages p).code_len :=
  by have e := congrArg MemPage.code_len (h.same.pages p); exact e
theorem Twins.top (h : Twins x y k s t) (p) : (s.pages p).code_block_top = (t.pages p).code_block_top :=
  by have e := congrArg MemPage.code_block_top (h.same.pages p); exact e

theorem Lifts.bind {R Q P : JitMemory → JitMemory → Prop} {c : M α} {f : α → M β} (hc : Lifts R Q c) (hP : ∀ s t, Q s t → P s t)
    (hf : ∀ a, Lifts Q P (f a)) : Lifts R P (c >>= f) := by
  intro s t h
  have := hc s t h
  rw [M.bind_def, M.bind_def]
  cases e1 : c s <;> cases e2 : c t <;> rw [e1, e2] at this
  · obtain ⟨rfl, h2⟩ := this
    exact hf _ _ _ h2
  · exact this.elim
  · exact this.elim
  · exact ⟨this.1, hP _ _ this.2⟩

theorem Deaf.bind {c : M α} {f : α → M β} (hc : Deaf c) (hf : ∀ a, Deaf (f a)) : Deaf (c >>= f) :=
  fun x y k => (hc x y k).bind (fun _ _ h => h) fun a => hf a x y k

theorem Deaf.seq {c : M Unit} {d : M β} (hc : Deaf c) (hd : Deaf d) : Deaf (do c; d) := .bind hc fun _ => hd

theorem Deaf.pure (a : α) : Deaf (pure a : M α) := fun _ _ _ _ _ h => ⟨rfl, h⟩
theorem Deaf.panic (e) : Deaf (M.panic e : M α) := fun _ _ _ _ _ h => ⟨rfl, h⟩
theorem Deaf.assert (b) : Deaf (M.assert b) := fun _ _ _ _ _ h => by
  simp only [M.assert]; split <;> exact ⟨rfl, h⟩
theorem Deaf.checkPage (p) : Deaf (Monoasm.checkPage p) := fun _ _ _ _ _ h => by
  simp only [Monoasm.checkPage]; split <;> exact ⟨rfl, h⟩
theorem Deaf.cur : Deaf JitMemory.cur := fun _ _ _ _ _ h => ⟨h.page, h⟩
theorem Deaf.counterOf (p) : Deaf (MemPage.counterOf p) := fun _ _ _ _ _ h => ⟨h.counter p, h⟩

theorem Deaf.modify {f : JitMemory → JitMemory} (hf : ∀ x y k s t, Twins x y k s t → Twins x y k (f s) (f t)) :
    Deaf (M.modify f) := fun _ _ _ _ _ h => ⟨rfl, hf _ _ _ _ _ h⟩

theorem Twins.updPage (h : Twins x y k s t) (p : Page) {f : MemPage → MemPage} (hb : ∀ pg, (f pg).code_block = pg.code_block)
    (he : ∀ a b, bare a = bare b → bare (f a) = bare (f b)) : Twins x y k (s.updPage p f) (t.updPage p f) where
  same := {
    page := h.page, labels := h.labels, mem := h.mem
    pages := fun q => by
      simp only [JitMemory.updPage]
      split
      · exact he _ _ (h.same.pages q)
      · exact h.same.pages q }
  blocks := fun q => by
    obtain ⟨z, h1, h2, h3⟩ := h.blocks q
    refine ⟨z, ?_, ?_, h3⟩ <;>
    · simp only [JitMemory.updPage]
      split <;> simp only [hb, h1, h2]

theorem bare_eq {a b : MemPage} (e : bare a = bare b) : a = { b with code_block := a.code_block } := by
  cases a; cases b
  simp only [bare, MemPage.mk.injEq] at e ⊢
  simp [e]

theorem Twins.record (h : Twins x y k s t) (p : Page) {f : MemPage → MemPage} (hb : ∀ pg, (f pg).code_block = pg.code_block)
    (he : ∀ a z, bare (f { a with code_block := z }) = bare (f a)) : Twins x y k (s.updPage p f) (t.updPage p f) :=
  h.updPage p hb fun a b e => by rw [bare_eq e, he]

theorem Deaf.setCounter (p c) : Deaf (MemPage.setCounter p c) := .modify fun _ _ _ _ _ h =>
  h.record p (fun _ => rfl) fun _ _ => rfl

theorem Deaf.codePtrFrom (x) : Deaf (JitMemory.codePtrFrom x) := by
  simp only [JitMemory.codePtrFrom]; split
  · exact .panic _
  · exact .pure _

/-- A computation that starts by looking at something other than the code blocks. -/
theorem Deaf.read (g : JitMemory → α) (f : α → M β) (hg : ∀ x y k s t, Twins x y k s t → g s = g t) (hf : ∀ a, Deaf (f a)) :
    Deaf (M.get >>= fun s => f (g s)) := by
  intro x y k s t h
  show Both _ (f (g s) s) (f (g t) t)
  rw [hg _ _ _ _ _ h]
  exact hf _ _ _ _ _ _ h

theorem Twins.withMem (h : Twins x y k s t) (m : Nat → Byte) : Twins x y k { s with mem := m } { t with mem := m } :=
  ⟨⟨h.page, h.labels, rfl, h.same.pages⟩, h.blocks⟩

theorem Twins.withLabels (h : Twins x y k s t) (l) : Twins x y k { s with labels := l } { t with labels := l } :=
  ⟨⟨h.page, rfl, h.mem, h.same.pages⟩, h.blocks⟩

theorem Deaf.write (p pos v) : Deaf (MemPage.write p pos v) := by
  intro x y k s t h
  simp only [MemPage.write]
  by_cases e : pos ≥ PAGE_SIZE
  · simp only [e, if_true]; exact ⟨rfl, h⟩
  · simp only [e, if_false]
    rw [h.mem, h.contents p]
    exact ⟨rfl, h.withMem _⟩

theorem Deaf.align_page (p) : Deaf (MemPage.align_page p) := .bind (.counterOf p) fun _ => .setCounter _ _
theorem Deaf.align16 (p) : Deaf (MemPage.align16 p) := .bind (.counterOf p) fun _ => .setCounter _ _
theorem Deaf.align8 (p) : Deaf (MemPage.align8 p) := .bind (.counterOf p) fun _ => .setCounter _ _
theorem Deaf.align4 (p) : Deaf (MemPage.align4 p) := .bind (.counterOf p) fun _ => .setCounter _ _
theorem Deaf.emitb (p v) : Deaf (MemPage.emitb p v) :=
  .bind (.counterOf p) fun _ => .seq (.write _ _ _) (.setCounter _ _)
theorem Deaf.emitw (p v) : Deaf (MemPage.emitw p v) :=
  .bind (.counterOf p) fun _ => .seq (.write _ _ _) (.seq (.write _ _ _) (.setCounter _ _))
theorem Deaf.emitl (p v) : Deaf (MemPage.emitl p v) :=
  .bind (.counterOf p) fun _ => .seq (.write _ _ _) (.seq (.write _ _ _) (.seq (.write _ _ _) (.seq (.write _ _ _) (.setCounter _ _))))
theorem Deaf.emitq (p v) : Deaf (MemPage.emitq p v) := .seq (.emitl _ _) (.emitl _ _)
theorem Deaf.write32 (p pos v) : Deaf (MemPage.write32 p pos v) :=
  .seq (.write _ _ _) (.seq (.write _ _ _) (.seq (.write _ _ _) (.write _ _ _)))

theorem Deaf.labelInfo (l) : Deaf (JitMemory.labelInfo l) := fun _ _ _ _ _ h => by
  simp only [JitMemory.labelInfo, h.labels]; split <;> exact ⟨rfl, h⟩
theorem Deaf.modifyLabel (l f) : Deaf (JitMemory.modifyLabel l f) := fun _ _ _ _ _ h => by
  simp only [JitMemory.modifyLabel, h.labels]; split
  · exact ⟨rfl, h.withLabels _⟩
  · exact ⟨rfl, h⟩
theorem Deaf.label : Deaf JitMemory.label := fun _ _ _ _ _ h => by
  simp only [JitMemory.label, h.labels]; exact ⟨rfl, h.withLabels _⟩

theorem Deaf.pushConstant (d l) : Deaf (JitMemory.pushConstant d l) := fun _ _ _ _ _ h => by
  refine ⟨rfl, ?_⟩
  dsimp only
  rw [h.page]
  exact h.record _ (fun _ => rfl) fun _ _ => rfl
theorem Deaf.pushData (d l) : Deaf (JitMemory.pushData d l) := fun _ _ _ _ _ h => by
  refine ⟨rfl, ?_⟩
  dsimp only
  rw [h.page]
  exact h.record _ (fun _ => rfl) fun _ _ => rfl

theorem Deaf.newCall (c : NewCall) : Deaf c.run := by
  cases c
  case label => exact .label
  all_goals
    refine .bind .label fun _ => .seq ?_ (.pure _)
    first | exact .pushConstant _ _ | exact .pushData _ _

theorem Deaf.bind_label (l) : Deaf (JitMemory.bind_label l) :=
  .bind .cur fun _ => .bind (.counterOf _) fun _ => .modifyLabel _ _
theorem Deaf.bind_label_with_page (p l) : Deaf (JitMemory.bind_label_with_page p l) :=
  .seq (.checkPage p) (.bind (.counterOf _) fun _ => .modifyLabel _ _)
theorem Deaf.save_reloc (l off) : Deaf (JitMemory.save_reloc l off) :=
  .bind .cur fun _ => .bind (.counterOf _) fun _ => .modifyLabel _ _

theorem Deaf.items (its : List Item) : Deaf (runItems its) := by
  induction its with
  | nil => exact .pure _
  | cons i is ih =>
    refine .seq ?_ ih
    cases i with
    | i8 v => exact .bind .cur fun _ => .emitb _ _
    | i16 v => exact .bind .cur fun _ => .emitw _ _
    | i32 v => exact .bind .cur fun _ => .emitl _ _
    | i64 v => exact .bind .cur fun _ => .emitq _ _
    | rel l off => exact .seq (.save_reloc l off) (.bind .cur fun _ => .emitl _ _)
    | bind l => exact .bind_label l
    | fail e => exact .panic e

theorem Deaf.pageCall (p) (c : PageCall) : Deaf (c.run p) := by
  cases c with
  | align_page => exact .align_page p
  | align16 => exact .align16 p
  | align8 => exact .align8 p
  | align4 => exact .align4 p
  | emitb v => exact .emitb p v
  | emitw v => exact .emitw p v
  | emitl v => exact .emitl p v
  | emitq v => exact .emitq p v
  | poke pos v => exact .write _ _ _

theorem Deaf.select_page (p) : Deaf (JitMemory.select_page p) := .seq (.assert _) (.modify fun _ _ _ _ _ h =>
  ⟨⟨rfl, h.labels, h.mem, h.same.pages⟩, h.blocks⟩)

theorem Deaf.get_label_pos (l) : Deaf (JitMemory.get_label_pos l) := by
  refine .bind (.labelInfo l) fun i => ?_
  cases i.loc with
  | none => exact .panic _
  | some x => exact .pure _

theorem Deaf.get_label_address (l) : Deaf (JitMemory.get_label_address l) :=
  .bind (.get_label_pos l) fun x => .read (fun s => (s.pages x.1).contents + x.2) JitMemory.codePtrFrom
    (fun _ _ _ _ _ h => by simp only [h.contents]) fun _ => .codePtrFrom _

theorem Deaf.rawWrite4 (x v) : Deaf (JitMemory.rawWrite4 x v) := fun _ _ _ _ _ h => by
  simp only [JitMemory.rawWrite4, M.modify, h.mem]
  exact ⟨rfl, h.withMem _⟩

theorem Deaf.patch_address (y l) : Deaf (apply_jmp_patch_address y l) :=
  .bind (.get_label_address l) fun _ => .rawWrite4 _ _
theorem Deaf.patch (p l) : Deaf (apply_jmp_patch p l) :=
  .bind (.get_label_address p) fun _ => .patch_address _ l

/-! ### `finalize` -/

theorem Deaf.emitZeros (p n) : Deaf (JitMemory.emitZeros p n) := by
  induction n with
  | zero => exact .pure _
  | succ n ih => exact .seq (.emitb p 0) ih

theorem Deaf.resolveOne (p d l) : Deaf (JitMemory.resolveOne p d l) := by
  cases d with
  | u64 v => exact .seq (.align16 p) (.seq (.bind_label_with_page p l) (.emitq p v))
  | u32 v => exact .seq (.align4 p) (.seq (.bind_label_with_page p l) (.emitl p v))
  | bytes n => exact .seq (.align16 p) (.seq (.bind_label_with_page p l) (.emitZeros p n))
  | absAddress x =>
    exact .seq (.align8 p) (.seq (.bind_label_with_page p l)
      (.seq (.bind (.counterOf _) fun _ => .modifyLabel _ _) (.emitq p 0)))
  | align8 => exact .seq (.align8 p) (.bind_label_with_page p l)

theorem Deaf.resolveList (p xs) : Deaf (JitMemory.resolveList p xs) := by
  induction xs with
  | nil => exact .pure _
  | cons x xs ih => exact .seq (.resolveOne p x.1 x.2) ih

theorem Deaf.resolveConstantsOf (p) : Deaf (JitMemory.resolveConstantsOf p) :=
  .read (fun s => (s.pages p).constants)
    (fun xs => do M.modify (fun s => s.updPage p fun pg => { pg with constants := [] }); JitMemory.resolveList p xs)
    (fun _ _ _ _ _ h => h.constants p)
    fun _ => .seq (.modify fun _ _ _ _ _ h => h.record p (fun _ => rfl) fun _ _ => rfl) (.resolveList p _)
theorem Deaf.resolveDataOf (p) : Deaf (JitMemory.resolveDataOf p) :=
  .read (fun s => (s.pages p).data)
    (fun xs => do M.modify (fun s => s.updPage p fun pg => { pg with data := [] }); JitMemory.resolveList DATA_PAGE xs)
    (fun _ _ _ _ _ h => h.data p)
    fun _ => .seq (.modify fun _ _ _ _ _ h => h.record p (fun _ => rfl) fun _ _ => rfl) (.resolveList _ _)

theorem Deaf.fillTarget (z t) : Deaf (JitMemory.fillTarget z t) := by
  cases t with
  | rel p off pos =>
    refine .read (fun s => (s.pages p).contents) (fun c => match i32TryFromInt ((z : Int) - ((c + pos + off.toNat : Nat) : Int)) with
      | some d => MemPage.write32 p pos d
      | none => M.panic .relocOverflow) (fun _ _ _ _ _ h => h.contents p) fun c => ?_
    split
    · exact .write32 _ _ _
    · exact .panic _
  | abs p pos =>
    exact .seq (.write _ _ _) (.seq (.write _ _ _) (.seq (.write _ _ _) (.seq (.write _ _ _)
      (.seq (.write _ _ _) (.seq (.write _ _ _) (.seq (.write _ _ _) (.write _ _ _)))))))

theorem Deaf.fillTargets (z ts) : Deaf (JitMemory.fillTargets z ts) := by
  induction ts with
  | nil => exact .pure _
  | cons t ts ih => exact .seq (.fillTarget z t) ih

theorem Deaf.fillLabel (r : LabelInfo) : Deaf (JitMemory.fillLabel r) := by
  simp only [JitMemory.fillLabel]
  cases r.loc with
  | none => exact .pure _
  | some x =>
    exact .read (fun s => (s.pages x.1).contents + x.2)
      (fun a => do JitMemory.fillTargets a r.target; Pure.pure ({ loc := some x, target := [] } : LabelInfo))
      (fun _ _ _ _ _ h => by simp only [h.contents]) fun _ => .seq (.fillTargets _ _) (.pure _)

theorem Deaf.fillLabels (rs : List LabelInfo) : Deaf (JitMemory.fillLabels rs) := by
  induction rs with
  | nil => exact .pure _
  | cons r rs ih => exact .bind (.fillLabel r) fun _ => .bind ih fun _ => .pure _

theorem Deaf.fill_relocs : Deaf JitMemory.fill_relocs :=
  .read (fun s => s.labels)
    (fun ls => do
      M.modify fun s => { s with labels := [] }
      let ls ← JitMemory.fillLabels ls
      M.modify fun s => { s with labels := ls })
    (fun _ _ _ _ _ h => h.labels)
    fun _ => .seq (.modify fun _ _ _ _ _ h => h.withLabels _)
      (.bind (.fillLabels _) fun _ => .modify fun _ _ _ _ _ h => h.withLabels _)

/-- The first loop of `finalize` appends a block to each page. -/
theorem Twins.opened (h : Twins x y k s t) : Both (Twins x y (k + 1)) (forPages openBlock s) (forPages openBlock t) := by
  refine ⟨rfl, ⟨h.page, h.labels, h.mem, fun p => ?_⟩, fun p => ?_⟩
  · show bare (if p < 3 then _ else _) = bare (if p < 3 then _ else _)
    split
    · rw [bare_eq (h.same.pages p)]; rfl
    · exact h.same.pages p
  · obtain ⟨z, h1, h2, h3⟩ := h.blocks p
    by_cases hp : p < 3
    · refine ⟨z ++ [((t.pages p).code_block_top, (t.pages p).counter, 0)], ?_, ?_, fun _ => by simp; exact h3 hp⟩
      · simp only [openBlock, if_pos hp, h1, h.top p, h.counter p, List.append_assoc]
      · simp only [openBlock, if_pos hp, h2, List.append_assoc]
    · exact ⟨z, by simp only [if_neg hp, h1], by simp only [if_neg hp, h2], fun h => absurd h hp⟩

/-- The second loop changes the last of the blocks. -/
theorem Twins.closed (h : Twins x y (k + 1) s t) : Both (Twins x y (k + 1)) (forPages closeBlock s) (forPages closeBlock t) := by
  have modify_append : ∀ (a z : Blocks) (f), z ≠ [] → (a ++ z).modify ((a ++ z).length - 1) f = a ++ z.modify (z.length - 1) f := by
    intro a z f hz
    have : 0 < z.length := List.length_pos_iff.2 hz
    rw [show (a ++ z).length - 1 = a.length + (z.length - 1) by simp; omega]
    clear hz this
    induction a with
    | nil => simp
    | cons b a ih =>
      rw [List.cons_append, List.length_cons, show a.length + 1 + (z.length - 1) = a.length + (z.length - 1) + 1 by omega,
        List.modify_succ_cons, ih, List.cons_append]
  refine ⟨rfl, ⟨h.page, h.labels, h.mem, fun p => ?_⟩, fun p => ?_⟩
  · show bare (if p < 3 then _ else _) = bare (if p < 3 then _ else _)
    split
    · rw [bare_eq (h.same.pages p)]; rfl
    · exact h.same.pages p
  · obtain ⟨z, h1, h2, h3⟩ := h.blocks p
    by_cases hp : p < 3
    · have hz : z ≠ [] := fun e => by have := h3 hp; simp [e] at this
      refine ⟨z.modify (z.length - 1) fun b => (b.1, b.2.1, (t.pages p).counter), ?_, ?_, fun _ => by simp; exact h3 hp⟩
      · simp only [closeBlock, if_pos hp, h1, h.counter p, modify_append _ _ _ hz]
      · simp only [closeBlock, if_pos hp, h2, modify_append _ _ _ hz]
    · exact ⟨z, by simp only [if_neg hp, h1], by simp only [if_neg hp, h2], fun h => absurd h hp⟩

theorem Deaf.topBlocks : Deaf (forPages topBlock) := fun x y k s t h => by
  refine ⟨rfl, ⟨h.page, h.labels, h.mem, fun p => ?_⟩, fun p => ?_⟩
  · show bare (if p < 3 then _ else _) = bare (if p < 3 then _ else _)
    split
    · rw [bare_eq (h.same.pages p)]; rfl
    · exact h.same.pages p
  · obtain ⟨z, h1, h2, h3⟩ := h.blocks p
    refine ⟨z, ?_, ?_, h3⟩
    · show (if p < 3 then topBlock _ else _).code_block = _
      split <;> exact h1
    · show (if p < 3 then topBlock _ else _).code_block = _
      split <;> exact h2

theorem finalize_twins : Lifts (Twins x y k) (Twins x y (k + 1)) JitMemory.finalize :=
  .bind (Q := Twins x y (k + 1)) (fun _ _ h => h.opened) (fun _ _ h => h) fun _ =>
    .bind (Q := Twins x y (k + 1)) ((Deaf.seq (.resolveConstantsOf 0) (.resolveConstantsOf 1)) x y (k + 1)) (fun _ _ h => h) fun _ =>
    .bind (Q := Twins x y (k + 1)) ((Deaf.seq (.resolveDataOf 0) (.resolveDataOf 1)) x y (k + 1)) (fun _ _ h => h) fun _ =>
    .bind (Q := Twins x y (k + 1)) (fun _ _ h => h.closed) (fun _ _ h => h) fun _ =>
      (Deaf.seq .fill_relocs .topBlocks) x y (k + 1)

theorem Both.mono {R Q : JitMemory → JitMemory → Prop} (h : ∀ s t, R s t → Q s t) {r q : Res α} (hr : Both R r q) : Both Q r q := by
  cases r <;> cases q
  · exact ⟨hr.1, h _ _ hr.2⟩
  · exact hr.elim
  · exact hr.elim
  · exact ⟨hr.1, h _ _ hr.2⟩

theorem Both.state {R : JitMemory → JitMemory → Prop} {r q : Res α} (hr : Both R r q) : R r.state q.state := by
  cases r <;> cases q
  · exact hr.2
  · exact hr.elim
  · exact hr.elim
  · exact hr.2

/-- No call looks at the code blocks; only `finalize` changes them. -/
theorem Deaf.op (op : Op) (hf : op ≠ .finalize) : Deaf op.run := by
  cases op with
  | select_page p => exact .select_page p
  | cur c => exact .bind .cur fun _ => .pageCall _ c
  | page p c => exact .seq (.checkPage p) (.pageCall p c)
  | emit bs => rw [Op.run_items (op := .emit bs) rfl]; exact .items _
  | new c => exact .bind (.newCall c) fun _ => .pure _
  | bind_label l => exact .bind_label l
  | bind_label_with_page p l => exact .bind_label_with_page p l
  | save_reloc l off => exact .save_reloc l off
  | enc c => rw [Op.run_items (op := .enc c) rfl]; exact .items _
  | inst i =>
    obtain ⟨its, e⟩ : ∃ its, (Op.inst i).itemsOf = some its := by
      simp only [Op.itemsOf]; split <;> exact ⟨_, rfl⟩
    rw [Op.run_items e]; exact .items _
  | finalize => exact absurd rfl hf
  | apply_jmp_patch p d => exact .patch p d
  | apply_jmp_patch_address a d => exact .patch_address a d

theorem call_twins (op : Op) : Lifts (Twins x y k) (Twins x y (k + finals [op])) op.run := by
  by_cases hf : op = .finalize
  · subst hf; exact finalize_twins
  · have e : finals [op] = 0 := by cases op <;> first | rfl | exact absurd rfl hf
    rw [e]; exact Deaf.op op hf x y k

end

theorem twins_of_same {s t : JitMemory} (h : SameApartBlocks s t) :
    Twins (fun p => (s.pages p).code_block) (fun p => (t.pages p).code_block) 0 s t :=
  ⟨h, fun p => ⟨[], by simp, by simp, fun _ => rfl⟩⟩

theorem call_same {s t : JitMemory} (h : SameApartBlocks s t) (op : Op) : Both SameApartBlocks (op.run s) (op.run t) :=
  (call_twins op s t (twins_of_same h)).mono fun _ _ h => h.same

theorem _root_.Spec.SameApartBlocks.edited {s t : JitMemory} (h : SameApartBlocks s t) (p : Page) (f : Blocks → Blocks) :
    SameApartBlocks ((Edit.blocks p f).run s) t :=
  ⟨h.page, h.labels, h.mem, fun q => by
    show bare (if q = p then _ else _) = _
    split
    · exact h.pages q
    · exact h.pages q⟩

theorem edits_same {es : List Edit} {s t : JitMemory} (h : SameApartBlocks s t) :
    SameApartBlocks (runEdits es s) (runCaught (editCalls es) t) := by
  induction es generalizing s t with
  | nil => exact h
  | cons e es ih =>
    cases e with
    | call op => exact ih (call_same h op).state
    | blocks p f => exact ih (h.edited p f)

theorem edits_calls (es : List Edit) (ops : List Op) (s : JitMemory) :
    runEdits (es ++ ops.map .call) s = runCaught ops (runEdits es s) := by
  induction es generalizing s with
  | nil =>
    induction ops generalizing s with
    | nil => rfl
    | cons op ops ih => exact ih _
  | cons e es ih => exact ih _

theorem editCalls_calls (es : List Edit) (ops : List Op) : editCalls (es ++ ops.map .call) = editCalls es ++ ops := by
  induction es with
  | nil =>
    induction ops with
    | nil => rfl
    | cons op ops ih => exact congrArg (op :: ·) ih
  | cons e es ih =>
    cases e with
    | call op => exact congrArg (op :: ·) ih
    | blocks p f => exact ih

theorem reach_more (base mem) (h ops : List Op) : reach base mem (h ++ ops) = runCaught ops (reach base mem h) := by
  simp only [reach, runCaught, List.foldl_append]

theorem finals_cons (op : Op) (ops : List Op) : finals (op :: ops) = finals [op] + finals ops := by
  cases op <;> simp [finals] <;> omega

theorem twins_calls {x y : Page → Blocks} {k : Nat} {s t : JitMemory} (h : Twins x y k s t) (ops : List Op) :
    Twins x y (k + finals ops) (runCaught ops s) (runCaught ops t) := by
  induction ops generalizing s t k with
  | nil => exact h
  | cons op ops ih =>
    rw [finals_cons, ← Nat.add_assoc]
    exact ih (call_twins op s t h).state

theorem as_slice_same {s t : JitMemory} (h : SameApartBlocks s t) : s.as_slice = t.as_slice := by
  have h1 := congrArg MemPage.contents (h.pages t.page)
  have h2 := congrArg MemPage.code_len (h.pages t.page)
  simp only [bare] at h1 h2
  simp only [JitMemory.as_slice, h.page, h.mem, h1, h2]

theorem dump_twins {x y : Page → Blocks} {k : Nat} {s t : JitMemory} (h : Twins x y (k + 1) s t) (hp : t.page < 3) :
    s.dump_slice = t.dump_slice := by
  obtain ⟨z, h1, h2, h3⟩ := h.blocks t.page
  have hz : z ≠ [] := fun e => by have := h3 hp; simp [e] at this
  have e1 : (x t.page ++ z).getLast? = (y t.page ++ z).getLast? := by
    obtain ⟨b, hb⟩ := List.getLast?_isSome.2 hz |> Option.isSome_iff_exists.1
    simp [List.getLast?_append, hb]
  simp only [JitMemory.dump_slice, h.page, h1, h2, e1, as_slice_same h.same]

end Monoasm
