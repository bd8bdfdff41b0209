import Verif.Proofs.Align
import Verif.Proofs.Shape
import Verif.Spec.Slots
/-
  Invariant of all histories, panicking calls included, and the part of the state each call may
  touch.
-/

set_option linter.unusedSimpArgs false

namespace Monoasm
open JitMemory Spec

structure Inv (base : Nat) (s : JitMemory) : Prop where
  contents : ∀ p, (s.pages p).contents = base + PAGE_SIZE * p
  counter : ∀ p, (s.pages p).counter ≤ PAGE_SIZE
  page : s.page < 2
  loc : ∀ (l : Nat) (i : LabelInfo), s.labels[l]? = some i → ∀ p c, i.loc = some (p, c) → p < 3 ∧ c ≤ PAGE_SIZE
  tgt : ∀ (l : Nat) (i : LabelInfo), s.labels[l]? = some i → ∀ t ∈ i.target, t.page < 3 ∧ t.pos ≤ PAGE_SIZE

/-- `s'` differs from `s` at most in the pages of `ps`, and satisfies the invariant. -/
structure Touch (base : Nat) (ps : Page → Prop) (s s' : JitMemory) : Prop where
  inv : Inv base s'
  page : s'.page = s.page
  mem : ∀ a, (∀ p, p < 3 → ps p → ¬ inPage base p a) → s'.mem a = s.mem a
  pages : ∀ q, ¬ ps q → s'.pages q = s.pages q

theorem Touch.refl {base ps s} (h : Inv base s) : Touch base ps s s :=
  ⟨h, rfl, fun _ _ => rfl, fun _ _ => rfl⟩

theorem Touch.trans {base ps s s' s''} (h : Touch base ps s s') (h' : Touch base ps s' s'') :
    Touch base ps s s'' :=
  ⟨h'.inv, h'.page.trans h.page, fun a ha => (h'.mem a ha).trans (h.mem a ha),
    fun q hq => (h'.pages q hq).trans (h.pages q hq)⟩

/-- Running `m` from any good state touches only `ps`, and (if `ro`) does not panic with
    "Relocation overflow". -/
def Safe (base : Nat) (ro : Prop) (ps : Page → Prop) {α} (m : M α) : Prop :=
  ∀ s, Inv base s → ps s.page →
    Touch base ps s (m s).state ∧ (ro → ∀ s', m s ≠ .panic .relocOverflow s')

section
variable {base : Nat} {ro : Prop} {ps : Page → Prop} {α β : Type}

theorem Safe.pure (a : α) : Safe base ro ps (Pure.pure a : M α) :=
  fun s h _ => ⟨Touch.refl h, fun _ s' h => by cases h⟩

theorem Safe.bind {m : M α} {f : α → M β} (hm : Safe base ro ps m)
    (hf : ∀ a, Safe base ro ps (f a)) : Safe base ro ps (m >>= f) := by
  intro s h hp
  have h1 := hm s h hp
  rw [M.bind_def]
  cases e : m s with
  | ok a s1 =>
    rw [e] at h1
    have h2 := hf a s1 h1.1.inv (by have := h1.1.page; simp at this; rw [this]; exact hp)
    exact ⟨h1.1.trans h2.1, h2.2⟩
  | panic er s1 =>
    rw [e] at h1
    refine ⟨h1.1, fun r s' he => h1.2 r s' ?_⟩
    cases he; rfl

theorem Safe.panic {e} (he : ro → e ≠ Panic.relocOverflow) : Safe base ro ps (M.panic e : M α) :=
  fun s h _ => ⟨Touch.refl h, fun r s' hs => he r (by cases hs; rfl)⟩

/-- Reading only. -/
theorem Safe.read {m : M α} (h : ∀ s, (∃ a, m s = .ok a s) ∨ ∃ e, m s = .panic e s ∧ e ≠ .relocOverflow) :
    Safe base ro ps m := by
  intro s hi hp
  rcases h s with ⟨a, e⟩ | ⟨e', e, hn⟩
  · rw [e]; exact ⟨Touch.refl hi, fun _ _ => by simp⟩
  · rw [e]; exact ⟨Touch.refl hi, fun _ _ hs => hn (by cases hs; rfl)⟩

theorem Safe.cur : Safe base ro ps JitMemory.cur := Safe.read fun s => .inl ⟨s.page, rfl⟩
theorem Safe.get : Safe base ro ps M.get := Safe.read fun s => .inl ⟨s, rfl⟩

/-- Strengthening by the state: the computation may be specialised to the state it runs in. -/
theorem Safe.of_state {m : M α} (h : ∀ s, Inv base s → ps s.page → ∃ m' : M α, m s = m' s ∧ Safe base ro ps m') :
    Safe base ro ps m := by
  intro s hi hp
  obtain ⟨m', e, h'⟩ := h s hi hp
  rw [e]; exact h' s hi hp

theorem Inv.putMem {s : JitMemory} (h : Inv base s) (mem) : Inv base { s with mem := mem } :=
  ⟨h.contents, h.counter, h.page, h.loc, h.tgt⟩

theorem Inv.setCounter {s : JitMemory} (h : Inv base s) {p c} (hc : c ≤ PAGE_SIZE) :
    Inv base { s with pages := fun q => if q = p then { s.pages q with counter := c } else s.pages q } := by
  refine ⟨fun q => ?_, fun q => ?_, h.page, h.loc, h.tgt⟩
  · by_cases hq : q = p <;> simp [hq, h.contents]
  · by_cases hq : q = p <;> simp [hq, h.counter, hc]

theorem putBytes_page {s : JitMemory} (h : Inv base s) {p c} {bs : List Byte} (hp : p < 3) (hps : ps p)
    (hc : c + bs.length ≤ PAGE_SIZE ∨ bs = []) (a : Nat)
    (ha : ∀ p, p < 3 → ps p → ¬ inPage base p a) :
    putBytes s.mem ((s.pages p).contents + c) bs a = s.mem a := by
  rcases hc with hc | rfl
  · have := ha p hp hps
    simp only [inPage] at this
    apply putBytes_out
    rw [h.contents]
    omega
  · rfl

theorem safe_emitRes {p} (bs) (hp : p < 3) (hps : ps p) : Safe base ro ps (emitRes p bs) := by
  intro s h _
  simp only [emitRes]
  split
  · rename_i hle
    refine ⟨⟨?_, rfl, ?_, ?_⟩, fun _ _ => by simp⟩
    · refine ⟨fun q => ?_, fun q => ?_, h.page, h.loc, h.tgt⟩
      · by_cases hq : q = p <;> simp [emitted, hq, h.contents]
      · by_cases hq : q = p
        · subst hq; simpa [emitted] using hle
        · simp [emitted, hq, h.counter]
    · intro a ha
      exact putBytes_page h hp hps (.inl hle) a ha
    · intro q hq
      have : q ≠ p := fun e => hq (e ▸ hps)
      simp [emitted, this]
  · refine ⟨⟨h.putMem _, rfl, ?_, fun _ _ => rfl⟩, fun _ _ => by simp⟩
    intro a ha
    refine putBytes_page h hp hps ?_ a ha
    have := h.counter p
    left
    simp only [List.length_take]
    omega

theorem safe_writes {p} (pos bs) (hp : p < 3) (hps : ps p) : Safe base ro ps (writes p pos bs) := by
  intro s h _
  rw [writes_run]
  split
  · rename_i hle
    exact ⟨⟨h.putMem _, rfl, fun a ha => putBytes_page h hp hps hle a ha, fun _ _ => rfl⟩,
      fun _ _ => by simp⟩
  · refine ⟨⟨h.putMem _, rfl, ?_, fun _ _ => rfl⟩, fun _ _ => by simp⟩
    intro a ha
    refine putBytes_page h hp hps ?_ a ha
    simp only [List.length_take]
    by_cases hc : pos ≤ PAGE_SIZE
    · left; omega
    · right
      have : PAGE_SIZE - pos = 0 := by omega
      simp [this]

theorem Safe.congr {m m' : M α} (h : ∀ s, m s = m' s) (h' : Safe base ro ps m') : Safe base ro ps m :=
  Safe.of_state fun s _ _ => ⟨m', h s, h'⟩

theorem safe_emitb {p} (v) (hp : p < 3) (hps : ps p) : Safe base ro ps (MemPage.emitb p v) :=
  .congr (emitb_run p v) (safe_emitRes _ hp hps)
theorem safe_emitw {p} (v) (hp : p < 3) (hps : ps p) : Safe base ro ps (MemPage.emitw p v) :=
  .congr (emitw_run p v) (safe_emitRes _ hp hps)
theorem safe_emitl {p} (v) (hp : p < 3) (hps : ps p) : Safe base ro ps (MemPage.emitl p v) :=
  .congr (emitl_run p v) (safe_emitRes _ hp hps)
theorem safe_emitq {p} (v) (hp : p < 3) (hps : ps p) : Safe base ro ps (MemPage.emitq p v) :=
  .bind (safe_emitl _ hp hps) fun _ => safe_emitl _ hp hps
theorem safe_write32 {p} (pos v) (hp : p < 3) (hps : ps p) : Safe base ro ps (MemPage.write32 p pos v) :=
  .congr (write32_run p pos v) (safe_writes _ _ hp hps)
theorem safe_write64 {p} (pos v) (hp : p < 3) (hps : ps p) : Safe base ro ps (MemPage.write64 p pos v) :=
  .congr (write64_run p pos v) (safe_writes _ _ hp hps)
theorem safe_write {p} (pos v) (hp : p < 3) (hps : ps p) : Safe base ro ps (MemPage.write p pos v) :=
  .congr (m' := writes p pos [v]) (fun s => by simp [writes, bind_pure_unit]) (safe_writes _ _ hp hps)

theorem safe_alignOp {p} (k) (hk : k ≤ 28) (hps : ps p) : Safe base ro ps (alignOp k p) := by
  intro s h _
  rw [alignOp_run]
  refine ⟨⟨h.setCounter (alignUp_le_page _ k hk (h.counter p)), rfl, fun _ _ => rfl, ?_⟩,
    fun _ _ => by simp⟩
  intro q hq
  have : q ≠ p := fun e => hq (e ▸ hps)
  simp [skipped, this]

theorem safe_checkPage (p) : Safe base ro ps (checkPage p) := Safe.read fun s => by
  simp only [checkPage]
  split
  · exact .inl ⟨_, rfl⟩
  · exact .inr ⟨_, rfl, by simp⟩

theorem safe_pageCall {p} (c : PageCall) (hp : p < 3) (hps : ps p) : Safe base ro ps (c.run p) := by
  cases c with
  | align_page => exact safe_alignOp 12 (by omega) hps
  | align16 => exact safe_alignOp 4 (by omega) hps
  | align8 => exact safe_alignOp 3 (by omega) hps
  | align4 => exact safe_alignOp 2 (by omega) hps
  | emitb v => exact safe_emitb v hp hps
  | emitw v => exact safe_emitw v hp hps
  | emitl v => exact safe_emitl v hp hps
  | emitq v => exact safe_emitq v hp hps
  | poke pos v => exact safe_write pos v hp hps

/-- Computations on the current page. -/
theorem Safe.onCur {f : Page → M α} (h : ∀ p, p < 3 → ps p → Safe base ro ps (f p)) :
    Safe base ro ps (JitMemory.cur >>= f) :=
  Safe.of_state fun s hi hp => ⟨f s.page, cur_bind f s, h _ (Nat.lt_trans hi.page (by decide)) hp⟩

theorem safe_curEmitb (v) : Safe base ro ps (JitMemory.emitb v) :=
  .onCur fun _ hp hps => safe_emitb v hp hps
theorem safe_curEmitw (v) : Safe base ro ps (JitMemory.emitw v) :=
  .onCur fun _ hp hps => safe_emitw v hp hps
theorem safe_curEmitl (v) : Safe base ro ps (JitMemory.emitl v) :=
  .onCur fun _ hp hps => safe_emitl v hp hps
theorem safe_curEmitq (v) : Safe base ro ps (JitMemory.emitq v) :=
  .onCur fun _ hp hps => safe_emitq v hp hps

/-! ### Labels -/

theorem Inv.modifyLabel {s : JitMemory} (h : Inv base s) {l f}
    (hloc : ∀ (i : LabelInfo) p c, (f i).loc = some (p, c) → i.loc = some (p, c) ∨ (p < 3 ∧ c ≤ PAGE_SIZE))
    (htgt : ∀ (i : LabelInfo) t, t ∈ (f i).target → t ∈ i.target ∨ (t.page < 3 ∧ t.pos ≤ PAGE_SIZE)) :
    Inv base { s with labels := s.labels.modify l f } := by
  refine ⟨h.contents, h.counter, h.page, ?_, ?_⟩
  · intro l' i hi p c hc
    simp only [List.getElem?_modify] at hi
    cases he : s.labels[l']? with
    | none => simp [he] at hi
    | some j =>
      simp only [he, Option.map_eq_map, Option.map_some, Option.some.injEq] at hi
      subst hi
      split at hc
      · rcases hloc _ _ _ hc with h' | h'
        · exact h.loc _ _ he _ _ h'
        · exact h'
      · exact h.loc _ _ he _ _ hc
  · intro l' i hi t ht
    simp only [List.getElem?_modify] at hi
    cases he : s.labels[l']? with
    | none => simp [he] at hi
    | some j =>
      simp only [he, Option.map_eq_map, Option.map_some, Option.some.injEq] at hi
      subst hi
      split at ht
      · rcases htgt _ _ ht with h' | h'
        · exact h.tgt _ _ he _ h'
        · exact h'
      · exact h.tgt _ _ he _ ht

theorem safe_modifyLabel {l f}
    (hloc : ∀ (i : LabelInfo) p c, (f i).loc = some (p, c) → i.loc = some (p, c) ∨ (p < 3 ∧ c ≤ PAGE_SIZE))
    (htgt : ∀ (i : LabelInfo) t, t ∈ (f i).target → t ∈ i.target ∨ (t.page < 3 ∧ t.pos ≤ PAGE_SIZE)) :
    Safe base ro ps (JitMemory.modifyLabel l f) := by
  intro s h _
  simp only [JitMemory.modifyLabel]
  split
  · exact ⟨⟨h.modifyLabel hloc htgt, rfl, fun _ _ => rfl, fun _ _ => rfl⟩, fun _ _ => by simp⟩
  · exact ⟨Touch.refl h, fun _ _ => by simp⟩

theorem safe_bind (p l) (hp : p < 3) : Safe base ro ps
    (do let c ← MemPage.counterOf p; JitMemory.modifyLabel l fun i => { i with loc := some (p, c) }) :=
  Safe.of_state fun s h _ => ⟨_, ok_bind (by rfl), safe_modifyLabel
    (fun i p' c' h' => by
      simp only [Option.some.injEq, Prod.mk.injEq] at h'
      right; rw [← h'.1, ← h'.2]; exact ⟨hp, h.counter p⟩)
    (fun i t ht => .inl ht)⟩

theorem safe_bind_label (l) : Safe base ro ps (JitMemory.bind_label l) :=
  .onCur fun p hp _ => safe_bind p l hp

theorem safe_bind_label_with_page (p l) : Safe base ro ps (JitMemory.bind_label_with_page p l) := by
  intro s h hps
  by_cases hp : p < 3
  · rw [show JitMemory.bind_label_with_page p l s = _ from ok_bind (a := ()) (s1 := s) (by simp [checkPage, hp])]
    exact safe_bind p l hp s h hps
  · rw [show JitMemory.bind_label_with_page p l s = _ from
      panic_bind (e := .indexOutOfBounds) (s1 := s) (by simp [checkPage, hp])]
    exact ⟨Touch.refl h, fun _ _ => by simp⟩

theorem safe_save_reloc (l off) : Safe base ro ps (JitMemory.save_reloc l off) :=
  .onCur fun p hp _ => Safe.of_state fun s h _ => ⟨_, ok_bind (by rfl), safe_modifyLabel
    (fun i p' c' h' => .inl h')
    (fun i t ht => by
      simp only [List.mem_append, List.mem_singleton] at ht
      rcases ht with h' | rfl
      · exact .inl h'
      · exact .inr ⟨hp, h.counter p⟩)⟩

theorem safe_save_absolute_reloc (p l) (hp : p < 3) : Safe base ro ps (JitMemory.save_absolute_reloc p l) :=
  Safe.of_state fun s h _ => ⟨_, ok_bind (by rfl), safe_modifyLabel
    (fun i p' c' h' => .inl h')
    (fun i t ht => by
      simp only [List.mem_append, List.mem_singleton] at ht
      rcases ht with h' | rfl
      · exact .inl h'
      · exact .inr ⟨hp, h.counter p⟩)⟩

theorem safe_label : Safe base ro ps JitMemory.label := by
  intro s h _
  refine ⟨⟨⟨h.contents, h.counter, h.page, ?_, ?_⟩, rfl, fun _ _ => rfl, fun _ _ => rfl⟩, fun _ _ => by
    simp [JitMemory.label]⟩
  · intro l i hi p c hc
    simp only [Res.state_ok, JitMemory.label, List.getElem?_append] at hi
    split at hi
    · exact h.loc _ _ hi _ _ hc
    · simp only [List.getElem?_singleton] at hi
      split at hi
      · cases hi; simp [LabelInfo.new] at hc
      · cases hi
  · intro l i hi t ht
    simp only [Res.state_ok, JitMemory.label, List.getElem?_append] at hi
    split at hi
    · exact h.tgt _ _ hi _ ht
    · simp only [List.getElem?_singleton] at hi
      split at hi
      · cases hi; simp [LabelInfo.new] at ht
      · cases hi

/-- Updates of page records that change neither cursor nor address. -/
theorem Inv.updPage {s : JitMemory} (h : Inv base s) {p f}
    (hf : ∀ pg : MemPage, (f pg).contents = pg.contents ∧ (f pg).counter = pg.counter) :
    Inv base (s.updPage p f) := by
  refine ⟨fun q => ?_, fun q => ?_, h.page, h.loc, h.tgt⟩
  · by_cases hq : q = p <;> simp [JitMemory.updPage, hq, hf, h.contents]
  · by_cases hq : q = p <;> simp [JitMemory.updPage, hq, hf, h.counter]

theorem safe_updCur {f : MemPage → MemPage}
    (hf : ∀ pg : MemPage, (f pg).contents = pg.contents ∧ (f pg).counter = pg.counter) :
    Safe base ro ps (M.modify fun s => s.updPage s.page f) := by
  intro s h hp
  refine ⟨⟨h.updPage hf, rfl, fun _ _ => rfl, fun q hq => ?_⟩, fun _ _ => by simp [M.modify]⟩
  have : q ≠ s.page := fun e => hq (e ▸ hp)
  simp [M.modify, JitMemory.updPage, this]

theorem safe_pushConstant (d l) : Safe base ro ps (JitMemory.pushConstant d l) :=
  safe_updCur fun _ => ⟨rfl, rfl⟩
theorem safe_pushData (d l) : Safe base ro ps (JitMemory.pushData d l) :=
  safe_updCur fun _ => ⟨rfl, rfl⟩

theorem safe_newCall (c : NewCall) : Safe base ro ps c.run := by
  cases c
  case label => exact safe_label
  case data_i64 | data_i32 | data =>
    exact .bind safe_label fun l => .bind (safe_pushData _ l) fun _ => .pure l
  all_goals exact .bind safe_label fun l => .bind (safe_pushConstant _ l) fun _ => .pure l

/-! ### Statements -/

theorem safe_item (it : Item) (h : ro → it ≠ .fail .relocOverflow) : Safe base ro ps it.run := by
  cases it with
  | i8 v => exact safe_curEmitb v
  | i16 v => exact safe_curEmitw v
  | i32 v => exact safe_curEmitl v
  | i64 v => exact safe_curEmitq v
  | rel l off => exact .bind (safe_save_reloc l off) fun _ => safe_curEmitl 0
  | bind l => exact safe_bind_label l
  | fail e => exact .panic fun r he => h r (by rw [he])

theorem safe_items (its : List Item) (h : ro → .fail .relocOverflow ∉ its) :
    Safe base ro ps (runItems its) := by
  induction its with
  | nil => exact .pure ()
  | cons i is ih =>
    refine .bind (safe_item i fun r e => h r (by simp [e])) fun _ => ih fun r hm => h r (by simp [hm])

/-- The items of a public encoder. -/
def EncCall.items : EncCall → List Item
  | .enc_o op reg => It.o .none op reg
  | .enc_oi op reg => It.o .none op reg
  | .enc_oi_byte op reg => It.o .byte op reg
  | .enc_rexw_o op reg => It.o .rexw op reg
  | .enc_mi op rm imm => It.mi op rm imm
  | .enc_rexw_mi op rm imm => It.rexw_mi op rm imm
  | .enc_mi_byte op rm imm => It.mi_byte op rm imm
  | .enc_mr op reg rm => It.mr op reg rm
  | .enc_mr_byte op reg rm => It.mr_byte op reg rm
  | .enc_rexw_mr op reg rm => It.rexw_mr op reg rm
  | .enc_m_byte op rm => It.m_byte op rm
  | .enc_d op dest => It.d op dest
  | .enc_digit op rm digit => It.digit op rm digit
  | .enc_digit_imm op rm digit imm => It.digit_imm op rm digit imm
  | .enc_digit_imm_byte op op_al rm digit imm => It.digit_imm_byte op op_al rm digit imm
  | .enc_rexw_digit op rm digit imm => It.rexw_digit op rm digit imm

theorem EncCall.run_eq (c : EncCall) : c.run = runItems c.items := by
  cases c
  case enc_o => exact enc_o_eq ..
  case enc_oi => exact enc_oi_eq ..
  case enc_oi_byte => exact enc_oi_byte_eq ..
  case enc_rexw_o => exact enc_rexw_o_eq ..
  case enc_d => exact enc_d_eq ..
  case enc_digit_imm_byte => exact enc_digit_imm_byte_eq ..
  all_goals (simp only [EncCall.run, EncCall.items]; exact encode_eq ..)

/-- The items of a call that only runs items. -/
def Op.itemsOf : Op → Option (List Item)
  | .emit bs => some (bs.map .i8)
  | .bind_label l => some [.bind l]
  | .enc c => some c.items
  | .inst i => match items i with
    | .ok its => some its
    | .error _ => some []
  | _ => none

theorem Op.run_items {op : Op} {its} (h : op.itemsOf = some its) : op.run = runItems its := by
  cases op <;> simp only [Op.itemsOf, Option.some.injEq, reduceCtorEq] at h
  case emit bs => subst h; exact emit_eq bs
  case bind_label l => subst h; simp [Op.run, Item.run]
  case enc c => subst h; exact c.run_eq
  case inst i =>
    simp only [Op.run, compile_eq]
    cases e : items i with
    | ok its' => rw [e] at h; simp only [Option.some.injEq] at h; subst h; rfl
    | error er => rw [e] at h; simp only [Option.some.injEq] at h; subst h; rfl

end
end Monoasm
