import Verif.Proofs.Objects
/-
  Two runs with different allocation addresses.
-/

namespace Monoasm
open JitMemory Spec

/-- `s1` and `s2` are the same up to the address of the allocation; the bytes at offset `x` are
    related by `D x`. -/
structure Shift (D : Nat → Byte → Byte → Prop) (b1 b2 : Nat) (s1 s2 : JitMemory) : Prop where
  page : s1.page = s2.page
  labels : s1.labels = s2.labels
  contents1 : ∀ p, (s1.pages p).contents = b1 + PAGE_SIZE * p
  pages : ∀ p, s2.pages p = { s1.pages p with contents := b2 + PAGE_SIZE * p }
  mem : ∀ x, D x (s1.mem (b1 + x)) (s2.mem (b2 + x))

section
variable {D : Nat → Byte → Byte → Prop} {b1 b2 : Nat}

/-- Results of two runs. -/
inductive RelRes (D : Nat → Byte → Byte → Prop) (b1 b2 : Nat) {α : Type} (Q : α → α → Prop) : Res α → Res α → Prop
  | ok {a b s1 s2} (h : Q a b) (hs : Shift D b1 b2 s1 s2) : RelRes D b1 b2 Q (.ok a s1) (.ok b s2)
  | panic (e) {s1 s2} (hs : Shift D b1 b2 s1 s2) : RelRes D b1 b2 Q (.panic e s1) (.panic e s2)

/-- The two programs do the same. -/
def RelM (D : Nat → Byte → Byte → Prop) (b1 b2 : Nat) {α : Type} (Q : α → α → Prop) (m1 m2 : M α) : Prop :=
  ∀ s1 s2, Shift D b1 b2 s1 s2 → RelRes D b1 b2 Q (m1 s1) (m2 s2)

theorem RelRes.state {α} {Q : α → α → Prop} {r1 r2} (h : RelRes D b1 b2 Q r1 r2) : Shift D b1 b2 r1.state r2.state := by
  cases h <;> assumption

theorem RelM.pure {α} {Q : α → α → Prop} {a b} (h : Q a b) : RelM D b1 b2 Q (pure a) (pure b) := fun _ _ hs => .ok h hs

theorem RelM.bind {α β} {Q : α → α → Prop} {R : β → β → Prop} {m1 m2 : M α} {f1 f2 : α → M β}
    (hm : RelM D b1 b2 Q m1 m2) (hf : ∀ a b, Q a b → RelM D b1 b2 R (f1 a) (f2 b)) :
    RelM D b1 b2 R (m1 >>= f1) (m2 >>= f2) := by
  intro s1 s2 hs
  have := hm s1 s2 hs
  simp only [M.bind_def]
  revert this
  generalize m1 s1 = r1
  generalize m2 s2 = r2
  intro h
  cases h with
  | ok h hs => exact hf _ _ h _ _ hs
  | panic e hs => exact .panic e hs

theorem RelM.seq {β} {R : β → β → Prop} {m1 m2 : M Unit} {f1 f2 : M β}
    (hm : RelM D b1 b2 Eq m1 m2) (hf : RelM D b1 b2 R f1 f2) :
    RelM D b1 b2 R (do m1; f1) (do m2; f2) := .bind hm fun _ _ _ => hf

theorem RelM.panic {α} {Q : α → α → Prop} (e) : RelM D b1 b2 Q (M.panic e) (M.panic e) := fun _ _ hs => .panic e hs

theorem RelM.assert (b) : RelM D b1 b2 Eq (M.assert b) (M.assert b) := by
  intro s1 s2 hs
  simp only [M.assert]; split
  · exact .ok rfl hs
  · exact .panic _ hs

theorem Shift.contents2 {s1 s2} (h : Shift D b1 b2 s1 s2) (p) : (s2.pages p).contents = b2 + PAGE_SIZE * p := by
  rw [h.pages]
theorem Shift.counter {s1 s2} (h : Shift D b1 b2 s1 s2) (p) : (s2.pages p).counter = (s1.pages p).counter := by
  rw [h.pages]

theorem Shift.upd {s1 s2} (h : Shift D b1 b2 s1 s2) {x v w} (hd : D x v w) :
    Shift D b1 b2 { s1 with mem := upd s1.mem (b1 + x) v } { s2 with mem := upd s2.mem (b2 + x) w } := by
  refine ⟨h.page, h.labels, h.contents1, h.pages, fun y => ?_⟩
  simp only [Monoasm.upd]
  by_cases e : y = x
  · subst e; simpa using hd
  · rw [if_neg (by omega), if_neg (by omega)]; exact h.mem y

theorem Shift.updPage {s1 s2} (h : Shift D b1 b2 s1 s2) (p) {f g : MemPage → MemPage}
    (hf : ∀ pg, (f pg).contents = pg.contents)
    (hfg : ∀ pg c, g { pg with contents := c } = { f pg with contents := c }) :
    Shift D b1 b2 (s1.updPage p f) (s2.updPage p g) := by
  refine ⟨h.page, h.labels, fun q => ?_, fun q => ?_, h.mem⟩
  · simp only [JitMemory.updPage]; split
    · rw [hf, h.contents1]
    · exact h.contents1 q
  · simp only [JitMemory.updPage]; split
    · rw [h.pages q, hfg]
    · exact h.pages q

theorem RelM.write {p pos v w} (hd : D (PAGE_SIZE * p + pos) v w) :
    RelM D b1 b2 Eq (MemPage.write p pos v) (MemPage.write p pos w) := by
  intro s1 s2 hs
  simp only [MemPage.write]; split
  · exact .panic _ hs
  · refine .ok rfl ?_
    rw [hs.contents1, hs.contents2, Nat.add_assoc, Nat.add_assoc]
    exact hs.upd hd

theorem RelM.counterOf (p) : RelM D b1 b2 Eq (MemPage.counterOf p) (MemPage.counterOf p) :=
  fun _ _ hs => .ok (hs.counter p).symm hs

theorem RelM.setCounter (p c) : RelM D b1 b2 Eq (MemPage.setCounter p c) (MemPage.setCounter p c) :=
  fun _ _ hs => .ok rfl (hs.updPage p (fun _ => rfl) fun _ _ => rfl)

theorem RelM.cur : RelM D b1 b2 Eq JitMemory.cur JitMemory.cur := fun _ _ hs => .ok hs.page hs

theorem RelM.align_page (p) : RelM D b1 b2 Eq (MemPage.align_page p) (MemPage.align_page p) :=
  .bind (.counterOf p) fun _ _ e => e ▸ .setCounter _ _
theorem RelM.align16 (p) : RelM D b1 b2 Eq (MemPage.align16 p) (MemPage.align16 p) :=
  .bind (.counterOf p) fun _ _ e => e ▸ .setCounter _ _
theorem RelM.align8 (p) : RelM D b1 b2 Eq (MemPage.align8 p) (MemPage.align8 p) :=
  .bind (.counterOf p) fun _ _ e => e ▸ .setCounter _ _
theorem RelM.align4 (p) : RelM D b1 b2 Eq (MemPage.align4 p) (MemPage.align4 p) :=
  .bind (.counterOf p) fun _ _ e => e ▸ .setCounter _ _

variable (hD : ∀ x b, D x b b)
include hD

theorem RelM.emitb (p v) : RelM D b1 b2 Eq (MemPage.emitb p v) (MemPage.emitb p v) :=
  .bind (.counterOf p) fun _ _ e => e ▸ .seq (.write (hD _ _)) (.setCounter _ _)
theorem RelM.emitw (p v) : RelM D b1 b2 Eq (MemPage.emitw p v) (MemPage.emitw p v) :=
  .bind (.counterOf p) fun _ _ e => e ▸ .seq (.write (hD _ _)) (.seq (.write (hD _ _)) (.setCounter _ _))
theorem RelM.emitl (p v) : RelM D b1 b2 Eq (MemPage.emitl p v) (MemPage.emitl p v) :=
  .bind (.counterOf p) fun _ _ e => e ▸ .seq (.write (hD _ _)) (.seq (.write (hD _ _))
    (.seq (.write (hD _ _)) (.seq (.write (hD _ _)) (.setCounter _ _))))
theorem RelM.emitq (p v) : RelM D b1 b2 Eq (MemPage.emitq p v) (MemPage.emitq p v) := .seq (.emitl hD _ _) (.emitl hD _ _)
theorem RelM.write32 (p pos v) : RelM D b1 b2 Eq (MemPage.write32 p pos v) (MemPage.write32 p pos v) :=
  .seq (.write (hD _ _)) (.seq (.write (hD _ _)) (.seq (.write (hD _ _)) (.write (hD _ _))))

omit hD in
theorem RelM.labelInfo (l) : RelM D b1 b2 Eq (JitMemory.labelInfo l) (JitMemory.labelInfo l) := by
  intro s1 s2 hs
  simp only [JitMemory.labelInfo, hs.labels]; split
  · exact .ok rfl hs
  · exact .panic _ hs

omit hD in
theorem RelM.modifyLabel (l f) : RelM D b1 b2 Eq (JitMemory.modifyLabel l f) (JitMemory.modifyLabel l f) := by
  intro s1 s2 hs
  simp only [JitMemory.modifyLabel, hs.labels]; split
  · exact .ok rfl ⟨hs.page, rfl, hs.contents1, hs.pages, hs.mem⟩
  · exact .panic _ hs

omit hD in
theorem RelM.label : RelM D b1 b2 Eq JitMemory.label JitMemory.label := by
  intro s1 s2 hs
  simp only [JitMemory.label, hs.labels]
  exact .ok rfl ⟨hs.page, rfl, hs.contents1, hs.pages, hs.mem⟩

omit hD in
theorem RelM.pushConstant (d l) : RelM D b1 b2 Eq (JitMemory.pushConstant d l) (JitMemory.pushConstant d l) := by
  intro s1 s2 hs
  simp only [JitMemory.pushConstant, M.modify, hs.page]
  exact .ok rfl (hs.updPage _ (fun _ => rfl) fun _ _ => rfl)

omit hD in
theorem RelM.pushData (d l) : RelM D b1 b2 Eq (JitMemory.pushData d l) (JitMemory.pushData d l) := by
  intro s1 s2 hs
  simp only [JitMemory.pushData, M.modify, hs.page]
  exact .ok rfl (hs.updPage _ (fun _ => rfl) fun _ _ => rfl)

omit hD in
theorem RelM.newCall (c : NewCall) : RelM D b1 b2 Eq c.run c.run := by
  cases c
  case label => exact .label
  all_goals
    refine .bind .label fun _ _ e => e ▸ .seq ?_ (.pure rfl)
    first | exact .pushConstant _ _ | exact .pushData _ _

omit hD in
theorem RelM.bind_label (l) : RelM D b1 b2 Eq (JitMemory.bind_label l) (JitMemory.bind_label l) :=
  .bind .cur fun _ _ e => e ▸ .bind (.counterOf _) fun _ _ e => e ▸ .modifyLabel _ _

omit hD in
theorem RelM.checkPage (p) : RelM D b1 b2 Eq (Monoasm.checkPage p) (Monoasm.checkPage p) := by
  intro s1 s2 hs
  simp only [Monoasm.checkPage]; split
  · exact .ok rfl hs
  · exact .panic _ hs

omit hD in
theorem RelM.bind_label_with_page (p l) :
    RelM D b1 b2 Eq (JitMemory.bind_label_with_page p l) (JitMemory.bind_label_with_page p l) :=
  .seq (.checkPage p) (.bind (.counterOf _) fun _ _ e => e ▸ .modifyLabel _ _)

omit hD in
theorem RelM.save_reloc (l off) : RelM D b1 b2 Eq (JitMemory.save_reloc l off) (JitMemory.save_reloc l off) :=
  .bind .cur fun _ _ e => e ▸ .bind (.counterOf _) fun _ _ e => e ▸ .modifyLabel _ _

theorem RelM.items (its : List Item) : RelM D b1 b2 Eq (runItems its) (runItems its) := by
  induction its with
  | nil => exact .pure rfl
  | cons i is ih =>
    refine .seq ?_ ih
    cases i with
    | i8 v => exact .bind .cur fun _ _ e => e ▸ .emitb hD _ _
    | i16 v => exact .bind .cur fun _ _ e => e ▸ .emitw hD _ _
    | i32 v => exact .bind .cur fun _ _ e => e ▸ .emitl hD _ _
    | i64 v => exact .bind .cur fun _ _ e => e ▸ .emitq hD _ _
    | rel l off => exact .seq (.save_reloc l off) (.bind .cur fun _ _ e => e ▸ .emitl hD _ _)
    | bind l => exact .bind_label l
    | fail e => exact .panic e

theorem RelM.pageCall (p) (c : PageCall) : RelM D b1 b2 Eq (c.run p) (c.run p) := by
  cases c with
  | align_page => exact .align_page p
  | align16 => exact .align16 p
  | align8 => exact .align8 p
  | align4 => exact .align4 p
  | emitb v => exact .emitb hD p v
  | emitw v => exact .emitw hD p v
  | emitl v => exact .emitl hD p v
  | emitq v => exact .emitq hD p v
  | poke pos v => exact .write (hD _ _)

omit hD in
theorem RelM.select_page (p) : RelM D b1 b2 Eq (JitMemory.select_page p) (JitMemory.select_page p) :=
  .seq (.assert _) fun _ _ hs => .ok rfl ⟨rfl, hs.labels, hs.contents1, hs.pages, hs.mem⟩

/-! ### Addresses -/

omit hD in
theorem RelM.get_label_pos (l) : RelM D b1 b2 Eq (JitMemory.get_label_pos l) (JitMemory.get_label_pos l) := by
  refine .bind (.labelInfo l) fun i _ e => e ▸ ?_
  cases i.loc with
  | none => exact .panic _
  | some x => exact .pure rfl

omit hD in
/-- Addresses at the same offset. -/
theorem RelM.get_label_address (h1 : 0 < b1) (h2 : 0 < b2) (l) :
    RelM D b1 b2 (fun a b => ∃ z, a = b1 + z ∧ b = b2 + z) (JitMemory.get_label_address l) (JitMemory.get_label_address l) := by
  refine .bind (.get_label_pos l) fun x _ e => e ▸ ?_
  intro s1 s2 hs
  obtain ⟨p, c⟩ := x
  simp only [M.bind_def, M.get, codePtrFrom, hs.contents1, hs.contents2]
  rw [if_neg (by omega), if_neg (by omega)]
  exact .ok ⟨PAGE_SIZE * p + c, by omega, by omega⟩ hs

theorem RelM.rawWrite4 (x v) : RelM D b1 b2 Eq (JitMemory.rawWrite4 (b1 + x) v) (JitMemory.rawWrite4 (b2 + x) v) := by
  intro s1 s2 hs
  refine .ok rfl ?_
  simp only [Nat.add_assoc]
  exact (((hs.upd (hD _ _)).upd (hD _ _)).upd (hD _ _)).upd (hD _ _)

theorem RelM.patch_address (h1 : 0 < b1) (h2 : 0 < b2) (y l) :
    RelM D b1 b2 Eq (apply_jmp_patch_address (b1 + y) l) (apply_jmp_patch_address (b2 + y) l) := by
  refine .bind (.get_label_address h1 h2 l) ?_
  rintro _ _ ⟨z, rfl, rfl⟩
  have key : ∀ b : Nat, BitVec.ofNat 64 (b + z) - BitVec.ofNat 64 (b + y) - 5#64 = BitVec.ofNat 64 z - BitVec.ofNat 64 y - 5#64 := by
    intro b
    rw [BitVec.ofNat_add, BitVec.ofNat_add]
    generalize BitVec.ofNat 64 b = B
    generalize BitVec.ofNat 64 z = Z
    generalize BitVec.ofNat 64 y = Y
    congr 1
    rw [BitVec.sub_eq_add_neg, BitVec.sub_eq_add_neg, BitVec.neg_add]
    rw [BitVec.add_comm B Z, BitVec.add_assoc, BitVec.sub_eq_add_neg, ← BitVec.add_assoc B, BitVec.add_right_neg, BitVec.zero_add]
  show RelM D b1 b2 Eq (JitMemory.rawWrite4 _ _) (JitMemory.rawWrite4 _ _)
  rw [show BitVec.ofNat 64 (b1 + z) - BitVec.ofNat 64 (b1 + y) - 5 = BitVec.ofNat 64 (b2 + z) - BitVec.ofNat 64 (b2 + y) - 5 from
    (key b1).trans (key b2).symm, Nat.add_assoc, Nat.add_assoc]
  exact .rawWrite4 hD _ _

theorem RelM.patch (h1 : 0 < b1) (h2 : 0 < b2) (p l) : RelM D b1 b2 Eq (apply_jmp_patch p l) (apply_jmp_patch p l) := by
  refine .bind (.get_label_address h1 h2 p) ?_
  rintro _ _ ⟨z, rfl, rfl⟩
  exact .patch_address hD h1 h2 z l

/-! ### `finalize` -/

omit hD in
theorem RelM.forPages {f : MemPage → MemPage} (hf : ∀ pg, (f pg).contents = pg.contents)
    (hfg : ∀ pg c, f { pg with contents := c } = { f pg with contents := c }) :
    RelM D b1 b2 Eq (JitMemory.forPages f) (JitMemory.forPages f) := by
  intro s1 s2 hs
  refine .ok rfl ⟨hs.page, hs.labels, fun q => ?_, fun q => ?_, hs.mem⟩
  · simp only; split
    · rw [hf, hs.contents1]
    · exact hs.contents1 q
  · simp only; split
    · rw [hs.pages q, hfg]
    · exact hs.pages q

theorem RelM.emitZeros (p n) : RelM D b1 b2 Eq (JitMemory.emitZeros p n) (JitMemory.emitZeros p n) := by
  induction n with
  | zero => exact .pure rfl
  | succ n ih => exact .seq (.emitb hD p 0) ih

theorem RelM.resolveOne (p d l) : RelM D b1 b2 Eq (JitMemory.resolveOne p d l) (JitMemory.resolveOne p d l) := by
  cases d with
  | u64 v => exact .seq (.align16 p) (.seq (.bind_label_with_page p l) (.emitq hD p v))
  | u32 v => exact .seq (.align4 p) (.seq (.bind_label_with_page p l) (.emitl hD p v))
  | bytes n => exact .seq (.align16 p) (.seq (.bind_label_with_page p l) (.emitZeros hD p n))
  | absAddress x =>
    exact .seq (.align8 p) (.seq (.bind_label_with_page p l)
      (.seq (.bind (.counterOf _) fun _ _ e => e ▸ .modifyLabel _ _) (.emitq hD p 0)))
  | align8 => exact .seq (.align8 p) (.bind_label_with_page p l)

theorem RelM.resolveList (p xs) : RelM D b1 b2 Eq (JitMemory.resolveList p xs) (JitMemory.resolveList p xs) := by
  induction xs with
  | nil => exact .pure rfl
  | cons x xs ih => exact .seq (.resolveOne hD p x.1 x.2) ih

theorem RelM.resolveConstantsOf (p) : RelM D b1 b2 Eq (JitMemory.resolveConstantsOf p) (JitMemory.resolveConstantsOf p) := by
  intro s1 s2 hs
  have e : (s2.pages p).constants = (s1.pages p).constants := by rw [hs.pages]
  simp only [JitMemory.resolveConstantsOf]
  rw [ok_bind (m := M.get) (s := s1) rfl, ok_bind (m := M.get) (s := s2) rfl, e]
  refine RelM.seq (D := D) (b1 := b1) (b2 := b2) ?_ (.resolveList hD p _) s1 s2 hs
  exact fun _ _ hs => .ok rfl (hs.updPage p (fun _ => rfl) fun _ _ => rfl)

theorem RelM.resolveDataOf (p) : RelM D b1 b2 Eq (JitMemory.resolveDataOf p) (JitMemory.resolveDataOf p) := by
  intro s1 s2 hs
  have e : (s2.pages p).data = (s1.pages p).data := by rw [hs.pages]
  simp only [JitMemory.resolveDataOf]
  rw [ok_bind (m := M.get) (s := s1) rfl, ok_bind (m := M.get) (s := s2) rfl, e]
  refine RelM.seq (D := D) (b1 := b1) (b2 := b2) ?_ (.resolveList hD DATA_PAGE _) s1 s2 hs
  exact fun _ _ hs => .ok rfl (hs.updPage p (fun _ => rfl) fun _ _ => rfl)

/-- `D` allows different bytes of addresses at the field `t`. -/
def AbsOk (D : Nat → Byte → Byte → Prop) : TargetType → Prop
  | .rel _ _ _ => True
  | .abs p pos => ∀ j, j < 8 → ∀ v w, D (PAGE_SIZE * p + (pos + j)) v w

theorem RelM.fillTarget (z t) (ht : AbsOk D t) :
    RelM D b1 b2 Eq (JitMemory.fillTarget (b1 + z) t) (JitMemory.fillTarget (b2 + z) t) := by
  cases t with
  | rel p off pos =>
    intro s1 s2 hs
    simp only [JitMemory.fillTarget, M.bind_def, M.get, hs.contents1, hs.contents2]
    rw [show ((b1 + z : Nat) : Int) - ((b1 + PAGE_SIZE * p + pos + off.toNat : Nat) : Int) = (z : Int) - ((PAGE_SIZE * p + pos + off.toNat : Nat) : Int) by omega,
      show ((b2 + z : Nat) : Int) - ((b2 + PAGE_SIZE * p + pos + off.toNat : Nat) : Int) = (z : Int) - ((PAGE_SIZE * p + pos + off.toNat : Nat) : Int) by omega]
    cases i32TryFromInt ((z : Int) - ((PAGE_SIZE * p + pos + off.toNat : Nat) : Int)) with
    | some d => exact RelM.write32 hD p pos d s1 s2 hs
    | none => exact .panic _ hs
  | abs p pos =>
    have key := fun j hj v w => RelM.write (b1 := b1) (b2 := b2) (p := p) (pos := pos + j) (ht j hj v w)
    exact .seq (key 0 (by omega) _ _) (.seq (key 1 (by omega) _ _) (.seq (key 2 (by omega) _ _) (.seq (key 3 (by omega) _ _)
      (.seq (key 4 (by omega) _ _) (.seq (key 5 (by omega) _ _) (.seq (key 6 (by omega) _ _) (key 7 (by omega) _ _)))))))

theorem RelM.fillTargets (z ts) (ht : ∀ t ∈ ts, AbsOk D t) :
    RelM D b1 b2 Eq (JitMemory.fillTargets (b1 + z) ts) (JitMemory.fillTargets (b2 + z) ts) := by
  induction ts with
  | nil => exact .pure rfl
  | cons t ts ih => exact .seq (.fillTarget hD z t (ht t (by simp))) (ih fun t h => ht t (by simp [h]))

theorem RelM.fillLabel (r : LabelInfo) (ht : ∀ t ∈ r.target, AbsOk D t) :
    RelM D b1 b2 Eq (JitMemory.fillLabel r) (JitMemory.fillLabel r) := by
  simp only [JitMemory.fillLabel]
  cases r.loc with
  | none => exact .pure rfl
  | some x =>
    obtain ⟨p, c⟩ := x
    intro s1 s2 hs
    simp only
    rw [ok_bind (m := M.get) (s := s1) rfl, ok_bind (m := M.get) (s := s2) rfl, hs.contents1, hs.contents2,
      Nat.add_assoc, Nat.add_assoc]
    exact RelM.seq (.fillTargets hD _ _ ht) (.pure rfl) s1 s2 hs

theorem RelM.fillLabels (rs : List LabelInfo) (ht : ∀ r ∈ rs, ∀ t ∈ r.target, AbsOk D t) :
    RelM D b1 b2 Eq (JitMemory.fillLabels rs) (JitMemory.fillLabels rs) := by
  induction rs with
  | nil => exact .pure rfl
  | cons r rs ih =>
    exact .bind (.fillLabel hD r (ht r (by simp))) fun _ _ e => e ▸ .bind (ih fun r h => ht r (by simp [h]))
      fun _ _ e => e ▸ .pure rfl

theorem relRes_fill_relocs {s1 s2} (hs : Shift D b1 b2 s1 s2) (ht : ∀ r ∈ s1.labels, ∀ t ∈ r.target, AbsOk D t) :
    RelRes D b1 b2 Eq (JitMemory.fill_relocs s1) (JitMemory.fill_relocs s2) := by
  simp only [JitMemory.fill_relocs]
  rw [ok_bind (m := M.get) (s := s1) rfl, ok_bind (m := M.get) (s := s2) rfl, ← hs.labels]
  refine RelM.seq (D := D) (b1 := b1) (b2 := b2) ?_ (.bind (.fillLabels hD _ ht) ?_) s1 s2 hs
  · exact fun _ _ hs => .ok rfl ⟨hs.page, rfl, hs.contents1, hs.pages, hs.mem⟩
  · exact fun _ _ e => e ▸ fun _ _ hs => .ok rfl ⟨hs.page, rfl, hs.contents1, hs.pages, hs.mem⟩

end
end Monoasm
