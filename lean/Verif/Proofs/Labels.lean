import Verif.Proofs.SafeFin
/-
  What calls do to the label table and to the lists of pending constants and data.
-/

set_option linter.unusedSimpArgs false

namespace Monoasm
open JitMemory Spec

/-- Position a label is bound to, if any. -/
def JitMemory.locOf (s : JitMemory) (l : DestLabel) : Option (Page × Nat) :=
  (s.labels[l]?).bind fun i => i.loc

/-- The label table keeps its size, labels outside `B` keep their position, pending constants and
    data stay. -/
structure Keep (B : DestLabel → Prop) (s s' : JitMemory) : Prop where
  len : s'.labels.length = s.labels.length
  loc : ∀ l, ¬ B l → s'.locOf l = s.locOf l
  constants : ∀ p, (s'.pages p).constants = (s.pages p).constants
  data : ∀ p, (s'.pages p).data = (s.pages p).data

theorem Keep.refl {B s} : Keep B s s := ⟨rfl, fun _ _ => rfl, fun _ => rfl, fun _ => rfl⟩
theorem Keep.trans {B s s' s''} (h : Keep B s s') (h' : Keep B s' s'') : Keep B s s'' :=
  ⟨h'.len.trans h.len, fun l hl => (h'.loc l hl).trans (h.loc l hl),
    fun p => (h'.constants p).trans (h.constants p), fun p => (h'.data p).trans (h.data p)⟩

/-- Every outcome of `m` keeps. -/
def Keeps (B : DestLabel → Prop) {α} (m : M α) : Prop := ∀ s, Keep B s (m s).state

section
variable {B : DestLabel → Prop} {α β : Type}

theorem Keeps.pure (a : α) : Keeps B (Pure.pure a : M α) := fun _ => .refl

theorem Keeps.bind {m : M α} {f : α → M β} (hm : Keeps B m) (hf : ∀ a, Keeps B (f a)) :
    Keeps B (m >>= f) := by
  intro s
  have h1 := hm s
  rw [M.bind_def]
  cases e : m s with
  | ok a s1 => rw [e] at h1; exact h1.trans (hf a s1)
  | panic er s1 => rw [e] at h1; exact h1

theorem Keeps.get : Keeps B M.get := fun _ => .refl
theorem Keeps.cur : Keeps B JitMemory.cur := fun _ => .refl
theorem Keeps.counterOf (p) : Keeps B (MemPage.counterOf p) := fun _ => .refl
theorem Keeps.panic (e) : Keeps B (M.panic e : M α) := fun _ => .refl

theorem Keeps.checkPage (p) : Keeps B (checkPage p) := by
  intro s; simp only [Monoasm.checkPage]; split <;> exact .refl

theorem Keeps.write (p pos v) : Keeps B (MemPage.write p pos v) := by
  intro s; simp only [MemPage.write]
  split
  · exact .refl
  · exact ⟨rfl, fun _ _ => rfl, fun _ => rfl, fun _ => rfl⟩

theorem Keeps.setCounter (p c) : Keeps B (MemPage.setCounter p c) := by
  intro s
  refine ⟨rfl, fun _ _ => rfl, fun q => ?_, fun q => ?_⟩ <;>
  · simp only [setCounter_eq, Res.state_ok]; split <;> rfl

theorem Keeps.emitb (p v) : Keeps B (MemPage.emitb p v) :=
  .bind (.counterOf p) fun _ => .bind (.write _ _ _) fun _ => .setCounter _ _
theorem Keeps.emitw (p v) : Keeps B (MemPage.emitw p v) :=
  .bind (.counterOf p) fun _ => .bind (.write _ _ _) fun _ => .bind (.write _ _ _) fun _ => .setCounter _ _
theorem Keeps.emitl (p v) : Keeps B (MemPage.emitl p v) :=
  .bind (.counterOf p) fun _ => .bind (.write _ _ _) fun _ => .bind (.write _ _ _) fun _ =>
    .bind (.write _ _ _) fun _ => .bind (.write _ _ _) fun _ => .setCounter _ _
theorem Keeps.emitq (p v) : Keeps B (MemPage.emitq p v) :=
  .bind (.emitl _ _) fun _ => .emitl _ _
theorem Keeps.write32 (p c v) : Keeps B (MemPage.write32 p c v) :=
  .bind (.write _ _ _) fun _ => .bind (.write _ _ _) fun _ =>
    .bind (.write _ _ _) fun _ => .write _ _ _
theorem Keeps.write64 (p c v) : Keeps B (MemPage.write64 p c v) :=
  .bind (.write _ _ _) fun _ => .bind (.write _ _ _) fun _ => .bind (.write _ _ _) fun _ => .bind (.write _ _ _) fun _ =>
  .bind (.write _ _ _) fun _ => .bind (.write _ _ _) fun _ => .bind (.write _ _ _) fun _ => .write _ _ _
theorem Keeps.alignOp (k p) : Keeps B (alignOp k p) := .bind (.counterOf p) fun _ => .setCounter _ _

theorem Keeps.pageCall (p) (c : PageCall) : Keeps B (c.run p) := by
  cases c with
  | align_page => exact .alignOp 12 p
  | align16 => exact .alignOp 4 p
  | align8 => exact .alignOp 3 p
  | align4 => exact .alignOp 2 p
  | emitb v => exact .emitb _ _
  | emitw v => exact .emitw _ _
  | emitl v => exact .emitl _ _
  | emitq v => exact .emitq _ _
  | poke pos v => exact .write _ _ _

theorem locOf_modify {s : JitMemory} {l l' f} :
    ({ s with labels := s.labels.modify l f } : JitMemory).locOf l'
      = (s.labels[l']?).bind fun i => (if l = l' then f i else i).loc := by
  simp only [JitMemory.locOf, List.getElem?_modify]
  cases s.labels[l']? with
  | none => rfl
  | some i => by_cases e : l = l' <;> simp [e]

/-- Changing entry `l` without touching its position, or when `l ∈ B`. -/
theorem Keeps.modifyLabel {l f} (h : B l ∨ ∀ i : LabelInfo, (f i).loc = i.loc) :
    Keeps B (JitMemory.modifyLabel l f) := by
  intro s
  simp only [JitMemory.modifyLabel]
  split
  · refine ⟨by simp, fun l' hl' => ?_, fun _ => rfl, fun _ => rfl⟩
    simp only [Res.state_ok]
    rw [locOf_modify, JitMemory.locOf]
    refine congrArg (s.labels[l']?).bind (funext fun i => ?_)
    split
    · rename_i e; subst e
      rcases h with h | h
      · exact absurd h hl'
      · exact h i
    · rfl
  · exact .refl

theorem Keeps.bind_label (l) (h : B l) : Keeps B (JitMemory.bind_label l) :=
  .bind .cur fun _ => .bind (.counterOf _) fun _ => .modifyLabel (.inl h)
theorem Keeps.bind_label_with_page (p l) (h : B l) : Keeps B (JitMemory.bind_label_with_page p l) :=
  .bind (.checkPage p) fun _ => .bind (.counterOf _) fun _ => .modifyLabel (.inl h)
theorem Keeps.save_reloc (l off) : Keeps B (JitMemory.save_reloc l off) :=
  .bind .cur fun _ => .bind (.counterOf _) fun _ => .modifyLabel (.inr fun _ => rfl)
theorem Keeps.save_absolute_reloc (p l) : Keeps B (JitMemory.save_absolute_reloc p l) :=
  .bind (.counterOf _) fun _ => .modifyLabel (.inr fun _ => rfl)

theorem Keeps.item (it : Item) (h : ∀ l, it = .bind l → B l) : Keeps B it.run := by
  cases it with
  | i8 v => exact .bind .cur fun _ => .emitb _ _
  | i16 v => exact .bind .cur fun _ => .emitw _ _
  | i32 v => exact .bind .cur fun _ => .emitl _ _
  | i64 v => exact .bind .cur fun _ => .emitq _ _
  | rel l off => exact .bind (.save_reloc _ _) fun _ => .bind .cur fun _ => .emitl _ _
  | bind l => exact .bind_label l (h l rfl)
  | fail e => exact .panic e

theorem Keeps.items (its : List Item) (h : ∀ l, .bind l ∈ its → B l) : Keeps B (runItems its) := by
  induction its with
  | nil => exact .pure ()
  | cons i is ih =>
    exact .bind (.item i fun l e => h l (by simp [e])) fun _ => ih fun l hl => h l (by simp [hl])

theorem Keeps.select_page (p) : Keeps B (JitMemory.select_page p) :=
  .bind (by intro s; simp only [M.assert]; split <;> exact .refl) fun _ _ =>
    ⟨rfl, fun _ _ => rfl, fun _ => rfl, fun _ => rfl⟩

theorem Keeps.read {m : M α} (h : ∀ s, (m s).state = s) : Keeps B m := by
  intro s; rw [h s]; exact .refl

theorem get_label_pos_state (l s) : (JitMemory.get_label_pos l s).state = s := by
  simp only [JitMemory.get_label_pos, M.bind_def, JitMemory.labelInfo]
  cases s.labels[l]? with
  | none => rfl
  | some i => cases e : i.loc <;> simp [e] <;> rfl

theorem get_label_address_state (l s) : (JitMemory.get_label_address l s).state = s := by
  have h := get_label_pos_state l s
  simp only [JitMemory.get_label_address, M.bind_def]
  cases e : JitMemory.get_label_pos l s with
  | panic er s1 => rw [e] at h; exact h
  | ok pc s1 =>
    rw [e] at h; simp only [Res.state_ok] at h; subst h
    simp only [M.get, JitMemory.codePtrFrom]
    split <;> rfl

theorem Keeps.get_label_address (l) : Keeps B (JitMemory.get_label_address l) :=
  .read (get_label_address_state l)

theorem Keeps.rawWrite4 (a v) : Keeps B (JitMemory.rawWrite4 a v) :=
  fun _ => ⟨rfl, fun _ _ => rfl, fun _ => rfl, fun _ => rfl⟩

theorem Keeps.patchAddress (a d) : Keeps B (JitMemory.apply_jmp_patch_address a d) :=
  .bind (.get_label_address d) fun _ => .rawWrite4 _ _
theorem Keeps.patch (p d) : Keeps B (JitMemory.apply_jmp_patch p d) :=
  .bind (.get_label_address p) fun _ => .patchAddress _ _

theorem encItems_noBind (op k mm rm imm l) : Item.bind l ∉ encItems op k mm rm imm := by
  have hrex : ∀ k a b c m, Item.bind l ∉ rexItems k a b c m := by
    intro k a b c m; cases k <;> simp only [rexItems] <;> (repeat' split) <;> simp
  have hsib : ∀ a b c, Item.bind l ≠ sibItem a b c := by
    intro a b c; simp only [sibItem]; split <;> simp
  have himm : ∀ i, Item.bind l ∉ immItems i := by intro i; cases i <;> simp [immItems]
  have hdisp : ∀ i d, Item.bind l ∉ dispItems i d := by intro i d; cases d <;> simp [dispItems]
  have hsc : ∀ s b, Item.bind l ∉ scaleItems s b := by
    intro s b; cases s <;> simp [scaleItems, hsib]
  simp only [encItems]
  (repeat' split) <;> simp [hrex, hsib, himm, hdisp, hsc]

theorem o_noBind (k op reg l) : Item.bind l ∉ It.o k op reg := by
  have hrex : ∀ k a b c m, Item.bind l ∉ rexItems k a b c m := by
    intro k a b c m; cases k <;> simp only [rexItems] <;> (repeat' split) <;> simp
  simp only [It.o]; split <;> simp [hrex]

theorem immItems_noBind (i l) : Item.bind l ∉ immItems i := by cases i <;> simp [immItems]

/-- Only the label statement binds a label. -/
theorem items_bind {i its l} (h : Monoasm.items i = .ok its) (hl : Item.bind l ∈ its) : i = .Label l := by
  cases items_shape h with
  | label l' => simp at hl; rw [hl]
  | bytes bs imm => simp [immItems_noBind] at hl
  | o pre k op reg imm => simp [immItems_noBind, o_noBind] at hl
  | enc pre op k mm rm imm => simp [encItems_noBind] at hl
  | round a b c => simp [encItems_noBind] at hl
  | d op l' => simp at hl
  | imm pre => simp at hl
  | cl => simp at hl

theorem encCall_noBind (c : EncCall) (l) : Item.bind l ∉ c.items := by
  cases c
  case enc_o | enc_oi | enc_oi_byte | enc_rexw_o => exact o_noBind _ _ _ _
  case enc_d => simp [EncCall.items, It.d]
  case enc_digit_imm_byte =>
    simp only [EncCall.items, It.digit_imm_byte]
    (repeat' split) <;> simp [encItems_noBind, immItems_noBind]
  all_goals (simp only [EncCall.items]; exact encItems_noBind _ _ _ _ _ _)

/-- Calls that neither create a label nor resolve anything. -/
theorem keeps_op {op : Op} (hn : ∀ c, op ≠ .new c) (hf : op ≠ .finalize) (hB : ∀ l, op.binds l → B l) :
    Keeps B op.run := by
  cases op with
  | select_page p => exact .select_page p
  | cur c => exact .bind .cur fun p => .pageCall p c
  | page p c => exact .bind (.checkPage p) fun _ => .pageCall p c
  | emit bs => rw [Op.run_items (op := .emit bs) rfl]; exact .items _ (by simp)
  | new c => exact absurd rfl (hn c)
  | bind_label l => exact .bind_label l (hB l rfl)
  | bind_label_with_page p l => exact .bind_label_with_page p l (hB l rfl)
  | save_reloc l off => exact .save_reloc l off
  | enc c => rw [Op.run_items (op := .enc c) rfl]; exact .items _ fun l h => absurd h (encCall_noBind c l)
  | inst i =>
    cases e : Monoasm.items i with
    | ok its =>
      rw [Op.run_items (op := .inst i) (its := its) (by simp [Op.itemsOf, e])]
      refine .items _ fun l hl => hB l ?_
      rw [items_bind e hl]; rfl
    | error er =>
      rw [Op.run_items (op := .inst i) (its := []) (by simp [Op.itemsOf, e])]; exact .pure ()
  | finalize => exact absurd rfl hf
  | apply_jmp_patch p d => exact .patch p d
  | apply_jmp_patch_address p d => exact .patchAddress p d

end

/-! ### Creating labels -/

/-- State after a call that creates a label. -/
def newState (c : NewCall) (s : JitMemory) : JitMemory :=
  { s with
    labels := s.labels ++ [LabelInfo.new]
    pages := fun q => if q = s.page then
      { s.pages q with
        constants := (s.pages q).constants ++ (c.const.map fun d => (d, s.labels.length)).toList
        data := (s.pages q).data ++ (c.datum.map fun d => (d, s.labels.length)).toList }
      else s.pages q }

theorem newState_label (s : JitMemory) :
    newState .label s = { s with labels := s.labels ++ [LabelInfo.new] } := by
  have : ∀ q, (if q = s.page then
      { s.pages q with
        constants := (s.pages q).constants ++ (NewCall.label.const.map fun d => (d, s.labels.length)).toList
        data := (s.pages q).data ++ (NewCall.label.datum.map fun d => (d, s.labels.length)).toList }
      else s.pages q) = s.pages q := by
    intro q
    split
    · show { s.pages q with constants := (s.pages q).constants ++ [], data := (s.pages q).data ++ [] } = _
      rw [List.append_nil, List.append_nil]
    · rfl
  unfold newState
  rw [show (fun q => _) = s.pages from funext this]

theorem newState_const (c : NewCall) (d) (h1 : c.const = some d) (h2 : c.datum = none) (s : JitMemory) :
    newState c s = ({ s with labels := s.labels ++ [LabelInfo.new] } : JitMemory).updPage s.page
      fun pg => { pg with constants := pg.constants ++ [(d, s.labels.length)] } := by
  simp [newState, h1, h2, JitMemory.updPage]

theorem newState_data (c : NewCall) (d) (h1 : c.const = none) (h2 : c.datum = some d) (s : JitMemory) :
    newState c s = ({ s with labels := s.labels ++ [LabelInfo.new] } : JitMemory).updPage s.page
      fun pg => { pg with data := pg.data ++ [(d, s.labels.length)] } := by
  simp [newState, h1, h2, JitMemory.updPage]

theorem newCall_run (c : NewCall) (s) : c.run s = .ok s.labels.length (newState c s) := by
  cases c
  case label => rw [newState_label]; rfl
  case data_i64 | data_i32 | data => rw [newState_data _ _ rfl rfl]; rfl
  all_goals rw [newState_const _ _ rfl rfl]; rfl

theorem newState_loc (c s) {l : Nat} (h : l ≠ s.labels.length) : (newState c s).locOf l = s.locOf l := by
  simp only [JitMemory.locOf, newState, List.getElem?_append]
  split
  · rfl
  · rw [List.getElem?_eq_none (l := s.labels) (by omega)]
    rw [List.getElem?_eq_none]
    have : s.labels.length < l := by omega
    simp; omega

theorem newState_fresh (c s) : (newState c s).labels[s.labels.length]? = some LabelInfo.new := by
  simp [newState]

/-! ### `finalize` -/

section
variable {B : DestLabel → Prop} {α β : Type}

theorem Keeps.emitZeros (p n) : Keeps B (emitZeros p n) := by
  induction n with
  | zero => exact .pure ()
  | succ n ih => exact .bind (.emitb _ _) fun _ => ih

theorem Keeps.resolveOne (p d l) (h : B l) : Keeps B (resolveOne p d l) := by
  cases d with
  | u64 v =>
    exact .bind (.alignOp 4 p) fun _ => .bind (.bind_label_with_page p l h) fun _ => .emitq _ _
  | u32 v =>
    exact .bind (.alignOp 2 p) fun _ => .bind (.bind_label_with_page p l h) fun _ => .emitl _ _
  | bytes n =>
    exact .bind (.alignOp 4 p) fun _ => .bind (.bind_label_with_page p l h) fun _ => .emitZeros _ _
  | absAddress lbl =>
    exact .bind (.alignOp 3 p) fun _ => .bind (.bind_label_with_page p l h) fun _ =>
      .bind (.save_absolute_reloc _ _) fun _ => .emitq _ _
  | align8 => exact .bind (.alignOp 3 p) fun _ => .bind_label_with_page p l h

theorem Keeps.resolveList (p cs) (h : ∀ d l, (d, l) ∈ cs → B l) : Keeps B (resolveList p cs) := by
  induction cs with
  | nil => exact .pure ()
  | cons c cs ih =>
    exact .bind (.resolveOne _ _ _ (h c.1 c.2 (by simp))) fun _ =>
      ih fun d l hl => h d l (by simp [hl])

/-- Keeping label positions and the size of the table; pending entries may only disappear. -/
structure KeepF (B : DestLabel → Prop) (s s' : JitMemory) : Prop where
  len : s'.labels.length = s.labels.length
  loc : ∀ l, ¬ B l → s'.locOf l = s.locOf l
  pending : ∀ l, Pending s' l → Pending s l

theorem Keep.toF {B s s'} (h : Keep B s s') : KeepF B s s' :=
  ⟨h.len, h.loc, fun l ⟨p, d, hp⟩ => ⟨p, d, by rw [h.constants, h.data] at hp; exact hp⟩⟩

theorem KeepF.refl {B s} : KeepF B s s := Keep.refl.toF
theorem KeepF.trans {B s s' s''} (h : KeepF B s s') (h' : KeepF B s' s'') : KeepF B s s'' :=
  ⟨h'.len.trans h.len, fun l hl => (h'.loc l hl).trans (h.loc l hl),
    fun l hl => h.pending l (h'.pending l hl)⟩

theorem keepF_resolveConstantsOf (id s) : KeepF (Pending s) s (resolveConstantsOf id s).state := by
  have h1 : KeepF (Pending s) s (s.updPage id fun pg => { pg with constants := [] }) := by
    refine ⟨rfl, fun _ _ => rfl, ?_⟩
    rintro l ⟨p, d, hp⟩
    refine ⟨p, d, ?_⟩
    simp only [JitMemory.updPage] at hp
    split at hp
    · rcases hp with hp | hp
      · simp at hp
      · exact .inr hp
    · exact hp
  refine h1.trans (Keep.toF ?_)
  exact Keeps.resolveList (B := Pending s) id (s.pages id).constants (fun d l h => ⟨id, d, .inl h⟩) _

theorem keepF_resolveDataOf (id s) : KeepF (Pending s) s (resolveDataOf id s).state := by
  have h1 : KeepF (Pending s) s (s.updPage id fun pg => { pg with data := [] }) := by
    refine ⟨rfl, fun _ _ => rfl, ?_⟩
    rintro l ⟨p, d, hp⟩
    refine ⟨p, d, ?_⟩
    simp only [JitMemory.updPage] at hp
    split at hp
    · rcases hp with hp | hp
      · exact .inl hp
      · simp at hp
    · exact hp
  refine h1.trans (Keep.toF ?_)
  exact Keeps.resolveList (B := Pending s) DATA_PAGE (s.pages id).data (fun d l h => ⟨id, d, .inr h⟩) _

theorem KeepF.mono {B B' : DestLabel → Prop} {s s'} (h : KeepF B s s') (hB : ∀ l, B l → B' l) :
    KeepF B' s s' := ⟨h.len, fun l hl => h.loc l fun hb => hl (hB l hb), h.pending⟩

/-- Outcome-wise `KeepF (Pending s)`, composable. -/
def KeepsF {α} (m : M α) : Prop := ∀ s, KeepF (Pending s) s (m s).state

theorem KeepsF.bind {m : M α} {f : α → M β} (hm : KeepsF m) (hf : ∀ a, KeepsF (f a)) :
    KeepsF (m >>= f) := by
  intro s
  have h1 := hm s
  rw [M.bind_def]
  cases e : m s with
  | ok a s1 => rw [e] at h1; exact h1.trans ((hf a s1).mono h1.pending)
  | panic er s1 => rw [e] at h1; exact h1

theorem keepsF_forPages (f : MemPage → MemPage)
    (hf : ∀ pg, (f pg).constants = pg.constants ∧ (f pg).data = pg.data) : KeepsF (forPages f) := by
  intro s
  refine Keep.toF ⟨rfl, fun _ _ => rfl, fun p => ?_, fun p => ?_⟩ <;>
  · simp only [forPages, M.modify, Res.state_ok]; split <;> simp [hf]

theorem Keeps.fillTarget (src t) : Keeps B (fillTarget src t) := by
  cases t with
  | abs p c => exact .write64 _ _ _
  | rel p off c =>
    refine .bind .get fun s => ?_
    dsimp only
    split
    · exact .write32 _ _ _
    · exact .panic _

theorem Keeps.fillTargets (src ts) : Keeps B (fillTargets src ts) := by
  induction ts with
  | nil => exact .pure ()
  | cons t ts ih => exact .bind (.fillTarget _ _) fun _ => ih

theorem Keeps.fillLabel (i) : Keeps B (fillLabel i) := by
  simp only [Monoasm.JitMemory.fillLabel]
  split
  · exact .bind .get fun s => .bind (.fillTargets _ _) fun _ => .pure _
  · exact .pure _

theorem Keeps.fillLabels (is) : Keeps B (fillLabels is) := by
  induction is with
  | nil => exact .pure _
  | cons i is ih => exact .bind (.fillLabel i) fun _ => .bind ih fun _ => .pure _

theorem filled_loc (i : LabelInfo) : i.filled.loc = i.loc := by
  simp only [LabelInfo.filled]; split <;> rfl

theorem fill_relocs_labels {s s'} (h : fill_relocs s = .ok () s') :
    s'.labels = s.labels.map LabelInfo.filled := by
  simp only [fill_relocs] at h
  obtain ⟨_, s0, h0, h⟩ := bind_ok h
  cases h0
  obtain ⟨_, s1, h1, h⟩ := bind_ok h
  obtain ⟨rs, s2, h2, h⟩ := bind_ok h
  cases h
  rw [fillLabels_ok h2]

theorem keepF_fill_relocs {s s'} (h : fill_relocs s = .ok () s') : KeepF (fun _ => False) s s' := by
  have hl := fill_relocs_labels h
  refine ⟨by rw [hl]; simp, fun l _ => ?_, ?_⟩
  · simp only [JitMemory.locOf, hl, List.getElem?_map]
    cases s.labels[l]? with
    | none => rfl
    | some i => simp [filled_loc]
  · simp only [fill_relocs] at h
    obtain ⟨_, s0, h0, h⟩ := bind_ok h
    cases h0
    obtain ⟨_, s1, h1, h⟩ := bind_ok h
    cases h1
    obtain ⟨rs, s2, h2, h⟩ := bind_ok h
    cases h
    have hk := Keeps.fillLabels (B := fun _ => True) s.labels { s with labels := [] }
    rw [h2] at hk
    rintro l ⟨p, d, hp⟩
    refine ⟨p, d, ?_⟩
    have h1 := hk.constants p
    have h2 := hk.data p
    simp only [Res.state_ok] at h1 h2
    simp only [h1, h2] at hp
    exact hp

/-- A `finalize` that returns keeps the size of the label table and the positions of all labels
    except those of pending constants and data. -/
theorem keepF_finalize {s s'} (h : finalize s = .ok () s') : KeepF (Pending s) s s' := by
  simp only [finalize] at h
  obtain ⟨_, s1, h1, h⟩ := bind_ok h
  obtain ⟨_, s2, h2, h⟩ := bind_ok h
  obtain ⟨_, s3, h3, h⟩ := bind_ok h
  obtain ⟨_, s4, h4, h⟩ := bind_ok h
  obtain ⟨_, s5, h5, h⟩ := bind_ok h
  have k1 := keepsF_forPages openBlock (fun _ => ⟨rfl, rfl⟩) s
  rw [h1] at k1
  have k2 : KeepsF resolve_constants :=
    .bind (keepF_resolveConstantsOf 0) fun _ => keepF_resolveConstantsOf 1
  have k2 := k2 s1
  rw [h2] at k2
  have k3 : KeepsF resolve_data :=
    .bind (keepF_resolveDataOf 0) fun _ => keepF_resolveDataOf 1
  have k3 := k3 s2
  rw [h3] at k3
  have k4 := keepsF_forPages closeBlock (fun _ => ⟨rfl, rfl⟩) s3
  rw [h4] at k4
  have k5 := keepF_fill_relocs h5
  have k6 := keepsF_forPages topBlock (fun _ => ⟨rfl, rfl⟩) s5
  rw [h] at k6
  have t2 := k1.trans (k2.mono k1.pending)
  have t3 := t2.trans (k3.mono t2.pending)
  have t4 := t3.trans (k4.mono t3.pending)
  have t5 := t4.trans (k5.mono fun _ => False.elim)
  exact t5.trans (k6.mono t5.pending)

/-- Likewise `fill_relocs`, whatever happens, unless the labels are lost. -/
theorem keepF_fill_state {s : JitMemory} (hl : (fill_relocs s).state.labels.length = s.labels.length) :
    KeepF (Pending s) s (fill_relocs s).state := by
  cases e : fill_relocs s with
  | ok u s' => exact (keepF_fill_relocs e).mono fun _ => False.elim
  | panic er s' =>
    rw [e] at hl
    simp only [Res.state_panic] at hl ⊢
    simp only [fill_relocs, M.bind_def, M.get, M.modify] at e
    have hk := Keeps.fillLabels (B := fun _ => True) s.labels { s with labels := [] }
    cases e2 : fillLabels s.labels { s with labels := [] } with
    | ok rs s2 => rw [e2] at e; cases e
    | panic er2 s2 =>
      rw [e2] at e hk; cases e
      have h0 : s'.labels = [] := List.eq_nil_of_length_eq_zero hk.len
      have h1 : s.labels = [] := by rw [h0] at hl; exact List.eq_nil_of_length_eq_zero hl.symm
      refine ⟨hl, fun l _ => ?_, fun l hp => (hk.toF.pending l hp)⟩
      simp only [JitMemory.locOf, h0, h1]

theorem keepF_step {m : M α} {f : α → M β} {s : JitMemory} (km : KeepsF m)
    (h : ∀ a s1, (f a s1).state.labels.length = s1.labels.length → KeepF (Pending s1) s1 (f a s1).state)
    (hl : ((m >>= f) s).state.labels.length = s.labels.length) : KeepF (Pending s) s ((m >>= f) s).state := by
  have k := km s
  rw [M.bind_def] at hl ⊢
  cases e : m s with
  | ok a s1 =>
    rw [e] at k hl
    have := h a s1 (hl.trans k.len.symm)
    exact k.trans (this.mono k.pending)
  | panic er s1 => rw [e] at k; exact k

/-- A `finalize` that does not lose the label table keeps the positions of all labels except those of
    pending constants and data. -/
theorem keepF_finalize_state {s : JitMemory} (hl : (finalize s).state.labels.length = s.labels.length) :
    KeepF (Pending s) s (finalize s).state := by
  refine keepF_step (keepsF_forPages openBlock fun _ => ⟨rfl, rfl⟩) (fun _ s1 => ?_) hl
  refine keepF_step (.bind (keepF_resolveConstantsOf 0) fun _ => keepF_resolveConstantsOf 1) (fun _ s2 => ?_)
  refine keepF_step (.bind (keepF_resolveDataOf 0) fun _ => keepF_resolveDataOf 1) (fun _ s3 => ?_)
  refine keepF_step (keepsF_forPages closeBlock fun _ => ⟨rfl, rfl⟩) (fun _ s4 h4 => ?_)
  rw [M.bind_def] at h4 ⊢
  cases e : fill_relocs s4 with
  | panic er s5 =>
    rw [e] at h4
    have := keepF_fill_state (s := s4) (by rw [e]; exact h4)
    rw [e] at this; exact this
  | ok u s5 =>
    have k := keepF_fill_relocs e
    exact (k.mono fun _ => False.elim).trans ((keepsF_forPages topBlock (fun _ => ⟨rfl, rfl⟩) s5).mono k.pending)

end
end Monoasm
