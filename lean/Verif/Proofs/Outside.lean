import Verif.Proofs.Past
import Verif.Spec.Outside
/-
  Calls never read memory: what they write and return does not depend on it.
-/

namespace Monoasm
open JitMemory Spec

/-- Memory `m` after the writes `w`. -/
def overlay (w : Nat → Option Byte) (m : Nat → Byte) : Nat → Byte := fun a => (w a).getD (m a)

def Res.withMem {α} (m : Nat → Byte) : Res α → Res α
  | .ok a s => .ok a { s with mem := m }
  | .panic e s => .panic e { s with mem := m }

/-- From every state, `c` makes fixed writes and ends with a fixed result and fixed records, whatever
    the memory contains. -/
def Blind {α} (c : M α) : Prop :=
  ∀ s, ∃ w : Nat → Option Byte, ∀ m, c { s with mem := m } = (c s).withMem (overlay w m)

section
variable {α β : Type}

theorem overlay_none (m : Nat → Byte) : overlay (fun _ => none) m = m := rfl

theorem overlay_overlay (w v : Nat → Option Byte) (m : Nat → Byte) :
    overlay w (overlay v m) = overlay (fun a => (w a).or (v a)) m := by
  funext a
  simp only [overlay]
  cases w a <;> simp

theorem Res.withMem_self (r : Res α) : r.withMem r.state.mem = r := by cases r <;> rfl

/-- Without writes. -/
theorem Blind.still {c : M α} (h : ∀ s m, c { s with mem := m } = (c s).withMem m) : Blind c :=
  fun s => ⟨fun _ => none, fun m => h s m⟩

theorem Blind.bind {c : M α} {f : α → M β} (hc : Blind c) (hf : ∀ a, Blind (f a)) : Blind (c >>= f) := by
  intro s
  obtain ⟨w, hw⟩ := hc s
  cases e : c s with
  | ok a t =>
    obtain ⟨v, hv⟩ := hf a t
    refine ⟨fun a => (v a).or (w a), fun m => ?_⟩
    rw [M.bind_def, M.bind_def, hw, e]
    simp only [Res.withMem]
    rw [hv, overlay_overlay]
    rfl
  | panic er t =>
    refine ⟨w, fun m => ?_⟩
    rw [M.bind_def, M.bind_def, hw, e]
    simp only [Res.withMem]

theorem Blind.seq {c : M Unit} {d : M β} (hc : Blind c) (hd : Blind d) : Blind (do c; d) := .bind hc fun _ => hd

theorem Blind.pure (a : α) : Blind (pure a : M α) := .still fun _ _ => rfl
theorem Blind.panic (e) : Blind (M.panic e : M α) := .still fun _ _ => rfl
theorem Blind.assert (b) : Blind (M.assert b) := .still fun s m => by
  simp only [M.assert]; split <;> rfl
theorem Blind.checkPage (p) : Blind (Monoasm.checkPage p) := .still fun s m => by
  simp only [Monoasm.checkPage]; split <;> rfl
theorem Blind.cur : Blind JitMemory.cur := .still fun _ _ => rfl
theorem Blind.counterOf (p) : Blind (MemPage.counterOf p) := .still fun _ _ => rfl
theorem Blind.setCounter (p c) : Blind (MemPage.setCounter p c) := .still fun _ _ => rfl
theorem Blind.codePtrFrom (x) : Blind (JitMemory.codePtrFrom x) := by
  simp only [JitMemory.codePtrFrom]; split
  · exact .panic _
  · exact .pure _

/-- A computation that starts by looking at the records. -/
theorem Blind.read (g : JitMemory → α) (f : α → M β) (hg : ∀ s m, g { s with mem := m } = g s) (hf : ∀ a, Blind (f a)) :
    Blind (M.get >>= fun s => f (g s)) := by
  intro s
  obtain ⟨w, hw⟩ := hf (g s) s
  refine ⟨w, fun m => ?_⟩
  have := hw m
  show f (g _) _ = Res.withMem _ (f (g s) s)
  rw [hg]; exact this

theorem upd_overlay (m : Nat → Byte) (a v) : upd m a v = overlay (fun x => if x = a then some v else none) m := by
  funext x
  simp only [upd, overlay]
  split <;> rfl

theorem Blind.write (p pos v) : Blind (MemPage.write p pos v) := by
  intro s
  simp only [MemPage.write]
  by_cases h : pos ≥ PAGE_SIZE
  · exact ⟨fun _ => none, fun m => by simp only [h, if_true]; rfl⟩
  · refine ⟨fun x => if x = (s.pages p).contents + pos then some v else none, fun m => ?_⟩
    simp only [h, if_false, Res.withMem, upd_overlay]

theorem Blind.align_page (p) : Blind (MemPage.align_page p) := .bind (.counterOf p) fun _ => .setCounter _ _
theorem Blind.align16 (p) : Blind (MemPage.align16 p) := .bind (.counterOf p) fun _ => .setCounter _ _
theorem Blind.align8 (p) : Blind (MemPage.align8 p) := .bind (.counterOf p) fun _ => .setCounter _ _
theorem Blind.align4 (p) : Blind (MemPage.align4 p) := .bind (.counterOf p) fun _ => .setCounter _ _
theorem Blind.emitb (p v) : Blind (MemPage.emitb p v) :=
  .bind (.counterOf p) fun _ => .seq (.write _ _ _) (.setCounter _ _)
theorem Blind.emitw (p v) : Blind (MemPage.emitw p v) :=
  .bind (.counterOf p) fun _ => .seq (.write _ _ _) (.seq (.write _ _ _) (.setCounter _ _))
theorem Blind.emitl (p v) : Blind (MemPage.emitl p v) :=
  .bind (.counterOf p) fun _ => .seq (.write _ _ _) (.seq (.write _ _ _) (.seq (.write _ _ _) (.seq (.write _ _ _) (.setCounter _ _))))
theorem Blind.emitq (p v) : Blind (MemPage.emitq p v) := .seq (.emitl _ _) (.emitl _ _)
theorem Blind.write32 (p pos v) : Blind (MemPage.write32 p pos v) :=
  .seq (.write _ _ _) (.seq (.write _ _ _) (.seq (.write _ _ _) (.write _ _ _)))

theorem Blind.labelInfo (l) : Blind (JitMemory.labelInfo l) := .still fun s m => by
  simp only [JitMemory.labelInfo]; split <;> rfl
theorem Blind.modifyLabel (l f) : Blind (JitMemory.modifyLabel l f) := .still fun s m => by
  simp only [JitMemory.modifyLabel]; split <;> rfl
theorem Blind.label : Blind JitMemory.label := .still fun _ _ => rfl
theorem Blind.pushConstant (d l) : Blind (JitMemory.pushConstant d l) := .still fun _ _ => rfl
theorem Blind.pushData (d l) : Blind (JitMemory.pushData d l) := .still fun _ _ => rfl

theorem Blind.newCall (c : NewCall) : Blind c.run := by
  cases c
  case label => exact .label
  all_goals
    refine .bind .label fun _ => .seq ?_ (.pure _)
    first | exact .pushConstant _ _ | exact .pushData _ _

theorem Blind.bind_label (l) : Blind (JitMemory.bind_label l) :=
  .bind .cur fun _ => .bind (.counterOf _) fun _ => .modifyLabel _ _
theorem Blind.bind_label_with_page (p l) : Blind (JitMemory.bind_label_with_page p l) :=
  .seq (.checkPage p) (.bind (.counterOf _) fun _ => .modifyLabel _ _)
theorem Blind.save_reloc (l off) : Blind (JitMemory.save_reloc l off) :=
  .bind .cur fun _ => .bind (.counterOf _) fun _ => .modifyLabel _ _

theorem Blind.items (its : List Item) : Blind (runItems its) := by
  induction its with
  | nil => exact .pure _
  | cons i is ih =>
    refine .seq ?_ ih
    cases i with
    | i8 v => exact .bind .cur fun _ => .emitb _ _
    | i16 v => exact .bind .cur fun _ => .emitw _ _
    | i32 v => exact .bind .cur fun _ => .emitl _ _
    | i64 v => exact .bind .cur fun _ => .emitq _ _
    | rel l off => exact .seq (.save_reloc l off) (.bind .cur fun _ => .emitl _ _)
    | bind l => exact .bind_label l
    | fail e => exact .panic e

theorem Blind.pageCall (p) (c : PageCall) : Blind (c.run p) := by
  cases c with
  | align_page => exact .align_page p
  | align16 => exact .align16 p
  | align8 => exact .align8 p
  | align4 => exact .align4 p
  | emitb v => exact .emitb p v
  | emitw v => exact .emitw p v
  | emitl v => exact .emitl p v
  | emitq v => exact .emitq p v
  | poke pos v => exact .write _ _ _

theorem Blind.select_page (p) : Blind (JitMemory.select_page p) := .seq (.assert _) (.still fun _ _ => rfl)

theorem Blind.get_label_pos (l) : Blind (JitMemory.get_label_pos l) := by
  refine .bind (.labelInfo l) fun i => ?_
  cases i.loc with
  | none => exact .panic _
  | some x => exact .pure _

theorem Blind.get_label_address (l) : Blind (JitMemory.get_label_address l) :=
  .bind (.get_label_pos l) fun x => .read (fun s => (s.pages x.1).contents + x.2) JitMemory.codePtrFrom (fun _ _ => rfl)
    fun _ => .codePtrFrom _

theorem Blind.get_label_u64 (l) : Blind (JitMemory.get_label_u64 l) :=
  .bind (.get_label_pos l) fun x => .read (fun s => (s.pages x.1).contents + x.2) Pure.pure (fun _ _ => rfl) fun _ => .pure _

theorem Blind.rawWrite4 (x v) : Blind (JitMemory.rawWrite4 x v) := by
  intro s
  simp only [JitMemory.rawWrite4, M.modify, upd_overlay, overlay_overlay]
  exact ⟨_, fun m => rfl⟩

theorem Blind.patch_address (y l) : Blind (apply_jmp_patch_address y l) :=
  .bind (.get_label_address l) fun _ => .rawWrite4 _ _
theorem Blind.patch (p l) : Blind (apply_jmp_patch p l) :=
  .bind (.get_label_address p) fun _ => .patch_address _ l

/-! ### `finalize` -/

theorem Blind.forPages (f) : Blind (JitMemory.forPages f) := .still fun _ _ => rfl

theorem Blind.emitZeros (p n) : Blind (JitMemory.emitZeros p n) := by
  induction n with
  | zero => exact .pure _
  | succ n ih => exact .seq (.emitb p 0) ih

theorem Blind.resolveOne (p d l) : Blind (JitMemory.resolveOne p d l) := by
  cases d with
  | u64 v => exact .seq (.align16 p) (.seq (.bind_label_with_page p l) (.emitq p v))
  | u32 v => exact .seq (.align4 p) (.seq (.bind_label_with_page p l) (.emitl p v))
  | bytes n => exact .seq (.align16 p) (.seq (.bind_label_with_page p l) (.emitZeros p n))
  | absAddress x =>
    exact .seq (.align8 p) (.seq (.bind_label_with_page p l)
      (.seq (.bind (.counterOf _) fun _ => .modifyLabel _ _) (.emitq p 0)))
  | align8 => exact .seq (.align8 p) (.bind_label_with_page p l)

theorem Blind.resolveList (p xs) : Blind (JitMemory.resolveList p xs) := by
  induction xs with
  | nil => exact .pure _
  | cons x xs ih => exact .seq (.resolveOne p x.1 x.2) ih

theorem Blind.resolveConstantsOf (p) : Blind (JitMemory.resolveConstantsOf p) :=
  .read (fun s => (s.pages p).constants)
    (fun xs => do M.modify (fun s => s.updPage p fun pg => { pg with constants := [] }); JitMemory.resolveList p xs)
    (fun _ _ => rfl) fun _ => .seq (.still fun _ _ => rfl) (.resolveList p _)
theorem Blind.resolveDataOf (p) : Blind (JitMemory.resolveDataOf p) :=
  .read (fun s => (s.pages p).data)
    (fun xs => do M.modify (fun s => s.updPage p fun pg => { pg with data := [] }); JitMemory.resolveList DATA_PAGE xs)
    (fun _ _ => rfl) fun _ => .seq (.still fun _ _ => rfl) (.resolveList _ _)

theorem Blind.fillTarget (z t) : Blind (JitMemory.fillTarget z t) := by
  cases t with
  | rel p off pos =>
    refine .read (fun s => (s.pages p).contents) (fun c => match i32TryFromInt ((z : Int) - ((c + pos + off.toNat : Nat) : Int)) with
      | some d => MemPage.write32 p pos d
      | none => M.panic .relocOverflow) (fun _ _ => rfl) fun c => ?_
    split
    · exact .write32 _ _ _
    · exact .panic _
  | abs p pos =>
    exact .seq (.write _ _ _) (.seq (.write _ _ _) (.seq (.write _ _ _) (.seq (.write _ _ _)
      (.seq (.write _ _ _) (.seq (.write _ _ _) (.seq (.write _ _ _) (.write _ _ _)))))))

theorem Blind.fillTargets (z ts) : Blind (JitMemory.fillTargets z ts) := by
  induction ts with
  | nil => exact .pure _
  | cons t ts ih => exact .seq (.fillTarget z t) ih

theorem Blind.fillLabel (r : LabelInfo) : Blind (JitMemory.fillLabel r) := by
  simp only [JitMemory.fillLabel]
  cases r.loc with
  | none => exact .pure _
  | some x =>
    exact .read (fun s => (s.pages x.1).contents + x.2)
      (fun a => do JitMemory.fillTargets a r.target; Pure.pure ({ loc := some x, target := [] } : LabelInfo)) (fun _ _ => rfl)
      fun _ => .seq (.fillTargets _ _) (.pure _)

theorem Blind.fillLabels (rs : List LabelInfo) : Blind (JitMemory.fillLabels rs) := by
  induction rs with
  | nil => exact .pure _
  | cons r rs ih => exact .bind (.fillLabel r) fun _ => .bind ih fun _ => .pure _

theorem Blind.fill_relocs : Blind JitMemory.fill_relocs :=
  .read (fun s => s.labels)
    (fun ls => do
      M.modify fun s => { s with labels := [] }
      let ls ← JitMemory.fillLabels ls
      M.modify fun s => { s with labels := ls })
    (fun _ _ => rfl) fun _ => .seq (.still fun _ _ => rfl) (.bind (.fillLabels _) fun _ => .still fun _ _ => rfl)

theorem Blind.finalize : Blind JitMemory.finalize :=
  .seq (.forPages _) (.seq (.seq (.resolveConstantsOf 0) (.resolveConstantsOf 1))
    (.seq (.seq (.resolveDataOf 0) (.resolveDataOf 1)) (.seq (.forPages _) (.seq .fill_relocs (.forPages _)))))

theorem Blind.op (op : Op) : Blind op.run := by
  cases op with
  | select_page p => exact .select_page p
  | cur c => exact .bind .cur fun _ => .pageCall _ c
  | page p c => exact .seq (.checkPage p) (.pageCall p c)
  | emit bs => rw [Op.run_items (op := .emit bs) rfl]; exact .items _
  | new c => exact .bind (.newCall c) fun _ => .pure _
  | bind_label l => exact .bind_label l
  | bind_label_with_page p l => exact .bind_label_with_page p l
  | save_reloc l off => exact .save_reloc l off
  | enc c => rw [Op.run_items (op := .enc c) rfl]; exact .items _
  | inst i =>
    obtain ⟨its, e⟩ : ∃ its, (Op.inst i).itemsOf = some its := by
      simp only [Op.itemsOf]; split <;> exact ⟨_, rfl⟩
    rw [Op.run_items e]; exact .items _
  | finalize => exact .finalize
  | apply_jmp_patch p d => exact .patch p d
  | apply_jmp_patch_address a d => exact .patch_address a d

end

/-! ### Memory changed between the calls -/

theorem _root_.Spec.SameRecords.refl (s : JitMemory) : SameRecords s s := ⟨rfl, rfl, rfl⟩

theorem _root_.Spec.SameRecords.symm {s t : JitMemory} (h : SameRecords s t) : SameRecords t s :=
  ⟨h.page.symm, h.labels.symm, h.pages.symm⟩

theorem _root_.Spec.SameRecords.trans {s t u : JitMemory} (h : SameRecords s t) (h' : SameRecords t u) : SameRecords s u :=
  ⟨h.page.trans h'.page, h.labels.trans h'.labels, h.pages.trans h'.pages⟩

theorem _root_.Spec.SameRecords.eq {s t : JitMemory} (h : SameRecords s t) : t = { s with mem := t.mem } := by
  obtain ⟨h1, h2, h3⟩ := h
  cases s; cases t
  simp only at h1 h2 h3
  subst h1 h2 h3; rfl

theorem _root_.Spec.SameRecords.inv {base} {s t : JitMemory} (h : SameRecords s t) (hi : Inv base s) : Inv base t := by
  rw [h.eq]
  exact hi.putMem _

/-- The same call on states with the same records: same writes, same result. -/
theorem call_alike {α} {c : M α} (hc : Blind c) {s t : JitMemory} (h : SameRecords s t) :
    ∃ w, (c s).state.mem = overlay w s.mem ∧ c t = (c s).withMem (overlay w t.mem) := by
  obtain ⟨w, hw⟩ := hc s
  refine ⟨w, ?_, ?_⟩
  · have := congrArg (fun r => Res.state r |>.mem) (hw s.mem)
    refine this.trans ?_
    show (Res.withMem _ _).state.mem = _
    cases c s <;> rfl
  · have := hw t.mem
    rw [← h.eq] at this
    exact this

theorem get_label_u64_state (l) (s : JitMemory) : (JitMemory.get_label_u64 l s).state = s := by
  have h := get_label_pos_state l s
  simp only [JitMemory.get_label_u64, M.bind_def]
  cases e : JitMemory.get_label_pos l s with
  | ok x t => rw [e] at h; exact h
  | panic er t => rw [e] at h; exact h

/-- Reading the records gives the same in both. -/
theorem read_alike {α} {c : M α} (hc : Blind c) (hk : ∀ s, (c s).state = s) {s t : JitMemory} (h : SameRecords s t) {x}
    (hx : c s = .ok x s) : c t = .ok x t := by
  obtain ⟨w, -, e⟩ := call_alike hc h
  have ht := hk t
  rw [e, hx] at ht ⊢
  exact congrArg _ ht

theorem hasAddress_alike {s t : JitMemory} (h : SameRecords s t) {l a} (ha : HasAddress s l a) : HasAddress t l a :=
  ⟨read_alike (.get_label_address l) (get_label_address_state l) h ha.1, read_alike (.get_label_u64 l) (get_label_u64_state l) h ha.2⟩

theorem withMem_records {α} (r : Res α) (m) : SameRecords r.state (r.withMem m).state := by
  cases r <;> exact ⟨rfl, rfl, rfl⟩

theorem withMem_mem {α} (r : Res α) (m) : (r.withMem m).state.mem = m := by cases r <;> rfl

theorem alike_step {s t : JitMemory} (h : SameRecords s t) {A : Nat → Prop} (hm : ∀ a, A a → s.mem a = t.mem a) (op : Op) :
    SameRecords (op.run s).state (op.run t).state ∧ ∀ a, A a → (op.run s).state.mem a = (op.run t).state.mem a := by
  obtain ⟨w, h1, h2⟩ := call_alike (Blind.op op) h
  rw [h2]
  refine ⟨withMem_records _ _, fun a ha => ?_⟩
  rw [h1, withMem_mem]
  simp only [overlay, hm a ha]

theorem alike_events {es : List Event} {s t : JitMemory} (h : SameRecords s t) {A : Nat → Prop}
    (hm : ∀ a, A a → s.mem a = t.mem a) (hu : Untouched A es) :
    SameRecords (runEvents es s) (runCaught (apiCalls es) t)
    ∧ ∀ a, A a → (runEvents es s).mem a = (runCaught (apiCalls es) t).mem a := by
  induction es generalizing s t with
  | nil => exact ⟨h, hm⟩
  | cons e es ih =>
    have hu' : Untouched A es := fun f hf => hu f (List.mem_cons_of_mem _ hf)
    cases e with
    | call op =>
      obtain ⟨h1, h2⟩ := alike_step h hm op
      simp only [runEvents, apiCalls, Event.run, runCaught_cons]
      exact ih h1 h2 hu'
    | outside f =>
      simp only [runEvents, apiCalls, Event.run]
      refine ih ⟨h.page, h.labels, h.pages⟩ (fun a ha => ?_) hu'
      exact (hu f (by simp) s.mem a ha).trans (hm a ha)

/-- The initial contents of memory do not matter for the records. -/
theorem reach_records (base) (m m' : Nat → Byte) (h : List Op) : SameRecords (reach base m h) (reach base m' h) := by
  simp only [reach]
  have h0 : SameRecords (JitMemory.new base m) (JitMemory.new base m') := ⟨rfl, rfl, rfl⟩
  revert h0
  generalize JitMemory.new base m = s
  generalize JitMemory.new base m' = t
  intro h0
  induction h generalizing s t with
  | nil => exact h0
  | cons op h ih =>
    rw [runCaught_cons, runCaught_cons]
    exact ih _ _ (alike_step (A := fun _ => False) h0 (fun _ => False.elim) op).1

/-! ### Two `JitMemory`s -/

theorem not_owns {base a : Nat} (h : ¬ Owns base a) : ∀ p, p < 3 → ¬ inPage base p a := by
  intro p hp hc
  refine h ?_
  have hP := PAGE_SIZE_eq
  simp only [inPage] at hc
  simp only [Owns]
  rcases page_cases hp with rfl | rfl | rfl <;> omega

theorem overwrites_alike {s t : JitMemory} (h : SameRecords s t) {op : Op} {a} (ho : Overwrites t op a) : Overwrites s op a := by
  cases op with
  | cur c => cases c <;> simp only [Overwrites, h.pages, h.page] at ho ⊢ <;> exact ho
  | page p c => cases c <;> simp only [Overwrites, h.pages] at ho ⊢ <;> exact ho
  | apply_jmp_patch l d =>
    obtain ⟨x, hx, h1⟩ := ho
    exact ⟨x, read_alike (.get_label_address l) (get_label_address_state l) h.symm hx, h1⟩
  | _ => exact ho

/-- A call leaves alone what lies outside the pages, unless it is a patch that goes there. -/
theorem owns_op {base s} (hi : Inv base s) {op : Op} {a : Nat} (ha : ¬ Owns base a)
    (hp : op.isPatch → ¬ Overwrites s op a) : (op.run s).state.mem a = s.mem a := by
  by_cases h : op.isPatch
  · have hk : op.pokes := by cases op <;> first | exact h.elim | trivial
    obtain ⟨m, e, hm⟩ := pokes_state hk s
    rw [e]
    exact hm a (hp h)
  · exact mem_op hi h (not_owns ha)

/-- `s` is one of two `JitMemory`s; alone it would be in the state `t`. -/
structure Alone (base : Nat) (s t : JitMemory) : Prop where
  records : SameRecords s t
  bytes : ∀ a, Owns base a → s.mem a = t.mem a

theorem Alone.step {base s t} (h : Alone base s t) (op : Op) : Alone base (op.run s).state (op.run t).state :=
  have := alike_step h.records h.bytes op
  ⟨this.1, this.2⟩

theorem Alone.other {base s t} (h : Alone base s t) {m : Nat → Byte} (hm : ∀ a, Owns base a → m a = s.mem a) :
    Alone base { s with mem := m } t :=
  ⟨⟨h.records.page, h.records.labels, h.records.pages⟩, fun a ha => (hm a ha).trans (h.bytes a ha)⟩

theorem apart_leaves {base mem s} {pre : List Op} {op : Op} (h : Alone base s (reach base mem pre))
    (hp : op.isPatch → ∀ a, Overwrites (reach base mem pre) op a → Owns base a) {a : Nat} (ha : ¬ Owns base a) :
    (op.run s).state.mem a = s.mem a :=
  owns_op (h.records.symm.inv (inv_reach base mem pre)) ha fun hpt ho =>
    ha (hp hpt a (overwrites_alike h.records.symm ho))

theorem reach_next (base mem) (h : List Op) (op : Op) : reach base mem (h ++ [op]) = (op.run (reach base mem h)).state := by
  simp only [reach, runCaught_append]; rfl

theorem pair_run {b1 b2 : Nat} {m : Nat → Byte} (hd : ∀ a, Owns b1 a → ¬ Owns b2 a) (cs : List (Bool × Op)) :
    ∀ {pre1 pre2 : List Op} {s : Pair}, Alone b1 s.first (reach b1 m pre1) → Alone b2 s.second (reach b2 m pre2) →
    s.first.mem = s.second.mem → PatchesHome b1 m (pre1 ++ callsOn false cs) → PatchesHome b2 m (pre2 ++ callsOn true cs) →
    Alone b1 (Pair.run cs s).first (reach b1 m (pre1 ++ callsOn false cs))
    ∧ Alone b2 (Pair.run cs s).second (reach b2 m (pre2 ++ callsOn true cs))
    ∧ (Pair.run cs s).first.mem = (Pair.run cs s).second.mem
    ∧ ∀ a, ¬ Owns b1 a → ¬ Owns b2 a → (Pair.run cs s).first.mem a = s.first.mem a := by
  induction cs with
  | nil =>
    intro pre1 pre2 s h1 h2 hm _ _
    simp only [callsOn, List.filter_nil, List.map_nil, List.append_nil, Pair.run]
    exact ⟨h1, h2, hm, fun _ _ _ => trivial⟩
  | cons c cs ih =>
    intro pre1 pre2 s h1 h2 hm p1 p2
    obtain ⟨b, op⟩ := c
    cases b with
    | false =>
      have e1 : callsOn false ((false, op) :: cs) = op :: callsOn false cs := rfl
      have e2 : callsOn true ((false, op) :: cs) = callsOn true cs := rfl
      rw [e1] at p1 ⊢
      rw [e2] at p2 ⊢
      have leaves := fun a => apart_leaves (a := a) h1 (p1 pre1 op _ rfl)
      rw [List.append_cons] at p1 ⊢
      have := ih (pre1 := pre1 ++ [op]) (pre2 := pre2) (s := s.call false op) (by rw [reach_next]; exact h1.step op)
        (h2.other fun a ha => (leaves a fun hc => hd a hc ha).trans (congrFun hm a)) rfl p1 p2
      refine ⟨this.1, this.2.1, this.2.2.1, fun a ha hb => (this.2.2.2 a ha hb).trans (leaves a ha)⟩
    | true =>
      have e1 : callsOn false ((true, op) :: cs) = callsOn false cs := rfl
      have e2 : callsOn true ((true, op) :: cs) = op :: callsOn true cs := rfl
      rw [e1] at p1 ⊢
      rw [e2] at p2 ⊢
      have leaves := fun a => apart_leaves (a := a) h2 (p2 pre2 op _ rfl)
      rw [List.append_cons] at p2 ⊢
      have := ih (pre1 := pre1) (pre2 := pre2 ++ [op]) (s := s.call true op)
        (h1.other fun a ha => (leaves a (hd a ha)).trans (congrFun hm a).symm) (by rw [reach_next]; exact h2.step op) rfl p1 p2
      refine ⟨this.1, this.2.1, this.2.2.1, fun a ha hb => (this.2.2.2 a ha hb).trans ((leaves a hb).trans (congrFun hm a).symm)⟩

end Monoasm
