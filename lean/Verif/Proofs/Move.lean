import Verif.Proofs.Shift
import Verif.Proofs.Frame
import Verif.Proofs.Placing
import Verif.Spec.Move
/-
  Where absolute addresses are stored, and the simulation of two runs with different allocation
  addresses.
-/

set_option linter.unusedSimpArgs false

namespace Monoasm
open JitMemory Spec

/-! ### Which fields hold absolute addresses -/

/-- `m` records no absolute field. -/
def NoAbs {α} (m : M α) : Prop :=
  ∀ s l p pos, .abs p pos ∈ targets (m s).state l → .abs p pos ∈ targets s l

section
variable {α β : Type}

theorem NoAbs.same {m : M α} (h : ∀ s, (m s).state.labels = s.labels) : NoAbs m := by
  intro s l p pos
  simp only [targets, h]
  exact id

theorem NoAbs.bind {m : M α} {f : α → M β} (hm : NoAbs m) (hf : ∀ a, NoAbs (f a)) : NoAbs (m >>= f) := by
  intro s l p pos h
  rw [M.bind_def] at h
  have h1 := hm s l p pos
  cases e : m s with
  | ok a s1 => rw [e] at h1 h; exact h1 (hf a s1 l p pos h)
  | panic er s1 => rw [e] at h1 h; exact h1 h

theorem NoAbs.pure (a : α) : NoAbs (Pure.pure a : M α) := .same fun _ => rfl
theorem NoAbs.panic (e) : NoAbs (M.panic e : M α) := .same fun _ => rfl
theorem NoAbs.cur : NoAbs JitMemory.cur := .same fun _ => rfl
theorem NoAbs.counterOf (p) : NoAbs (MemPage.counterOf p) := .same fun _ => rfl
theorem NoAbs.setCounter (p c) : NoAbs (MemPage.setCounter p c) := .same fun _ => rfl
theorem NoAbs.write (p pos v) : NoAbs (MemPage.write p pos v) := .same fun s => by
  simp only [MemPage.write]; split <;> rfl
theorem NoAbs.checkPage (p) : NoAbs (Monoasm.checkPage p) := .same fun s => by
  simp only [Monoasm.checkPage]; split <;> rfl
theorem NoAbs.assert (b) : NoAbs (M.assert b) := .same fun s => by
  simp only [M.assert]; split <;> rfl

theorem NoAbs.modifyLabel {l f} (hf : ∀ (i : LabelInfo) p pos, .abs p pos ∈ (f i).target → .abs p pos ∈ i.target) :
    NoAbs (JitMemory.modifyLabel l f) := by
  intro s l' p pos h
  simp only [JitMemory.modifyLabel] at h
  split at h
  · simp only [targets, Res.state_ok, List.getElem?_modify] at h ⊢
    rcases Option.eq_none_or_eq_some (s.labels[l']?) with e | ⟨i, e⟩
    · simp only [e, Option.map_eq_map, Option.map_none] at h ⊢; exact h
    · simp only [e, Option.map_eq_map, Option.map_some] at h ⊢
      split at h
      · exact hf i p pos h
      · exact h
  · exact h

theorem NoAbs.bind_label (l) : NoAbs (JitMemory.bind_label l) :=
  .bind .cur fun _ => .bind (.counterOf _) fun _ => .modifyLabel fun _ _ _ => id
theorem NoAbs.bind_label_with_page (p l) : NoAbs (JitMemory.bind_label_with_page p l) :=
  .bind (.checkPage p) fun _ => .bind (.counterOf _) fun _ => .modifyLabel fun _ _ _ => id
theorem NoAbs.save_reloc (l off) : NoAbs (JitMemory.save_reloc l off) :=
  .bind .cur fun _ => .bind (.counterOf _) fun _ => .modifyLabel fun i p pos h => by simpa using h

theorem NoAbs.emitb (p v) : NoAbs (MemPage.emitb p v) :=
  .bind (.counterOf p) fun _ => .bind (.write _ _ _) fun _ => .setCounter _ _
theorem NoAbs.emitw (p v) : NoAbs (MemPage.emitw p v) :=
  .bind (.counterOf p) fun _ => .bind (.write _ _ _) fun _ => .bind (.write _ _ _) fun _ => .setCounter _ _
theorem NoAbs.emitl (p v) : NoAbs (MemPage.emitl p v) :=
  .bind (.counterOf p) fun _ => .bind (.write _ _ _) fun _ => .bind (.write _ _ _) fun _ =>
    .bind (.write _ _ _) fun _ => .bind (.write _ _ _) fun _ => .setCounter _ _
theorem NoAbs.emitq (p v) : NoAbs (MemPage.emitq p v) := .bind (.emitl _ _) fun _ => .emitl _ _
theorem NoAbs.alignOp (k p) : NoAbs (alignOp k p) := .bind (.counterOf p) fun _ => .setCounter _ _
theorem NoAbs.emitZeros (p n) : NoAbs (JitMemory.emitZeros p n) := by
  induction n with
  | zero => exact .pure ()
  | succ n ih => exact .bind (.emitb _ _) fun _ => ih

theorem NoAbs.pageCall (p) (c : PageCall) : NoAbs (c.run p) := by
  cases c with
  | align_page => exact .alignOp 12 p
  | align16 => exact .alignOp 4 p
  | align8 => exact .alignOp 3 p
  | align4 => exact .alignOp 2 p
  | emitb v => exact .emitb _ _
  | emitw v => exact .emitw _ _
  | emitl v => exact .emitl _ _
  | emitq v => exact .emitq _ _
  | poke pos v => exact .write _ _ _

theorem NoAbs.items (its : List Item) : NoAbs (runItems its) := by
  induction its with
  | nil => exact .pure ()
  | cons i is ih =>
    refine .bind ?_ fun _ => ih
    cases i with
    | i8 v => exact .bind .cur fun _ => .emitb _ _
    | i16 v => exact .bind .cur fun _ => .emitw _ _
    | i32 v => exact .bind .cur fun _ => .emitl _ _
    | i64 v => exact .bind .cur fun _ => .emitq _ _
    | rel l off => exact .bind (.save_reloc _ _) fun _ => .bind .cur fun _ => .emitl _ _
    | bind l => exact .bind_label l
    | fail e => exact .panic e

theorem NoAbs.get_label_address (l) : NoAbs (JitMemory.get_label_address l) :=
  .same fun s => by rw [get_label_address_state]
theorem NoAbs.patchAddress (a d) : NoAbs (JitMemory.apply_jmp_patch_address a d) :=
  .bind (.get_label_address d) fun _ => .same fun _ => rfl
theorem NoAbs.patch (p d) : NoAbs (JitMemory.apply_jmp_patch p d) :=
  .bind (.get_label_address p) fun _ => .patchAddress _ _

theorem NoAbs.op {op : Op} (hf : op ≠ .finalize) : NoAbs op.run := by
  cases op with
  | select_page p => exact .bind (.assert _) fun _ => .same fun _ => rfl
  | cur c => exact .bind .cur fun p => .pageCall p c
  | page p c => exact .bind (.checkPage p) fun _ => .pageCall p c
  | emit bs => rw [Op.run_items (op := .emit bs) rfl]; exact .items _
  | new c =>
    intro s l p pos h
    rw [new_state] at h
    simp only [targets, newState, List.getElem?_append] at h ⊢
    by_cases hl : l < s.labels.length
    · rw [if_pos hl] at h; exact h
    · rw [if_neg hl] at h
      have : ∀ n : Nat, TargetType.abs p pos ∉ (match [LabelInfo.new][n]? with | some i => i.target | none => []) := by
        intro n
        cases n <;> simp [LabelInfo.new]
      exact absurd h (this _)
  | bind_label l => exact .bind_label l
  | bind_label_with_page p l => exact .bind_label_with_page p l
  | save_reloc l off => exact .save_reloc l off
  | enc c => rw [Op.run_items (op := .enc c) rfl]; exact .items _
  | inst i =>
    obtain ⟨its, e⟩ : ∃ its, (Op.inst i).itemsOf = some its := by
      simp only [Op.itemsOf]; split <;> exact ⟨_, rfl⟩
    rw [Op.run_items e]; exact .items _
  | finalize => exact absurd rfl hf
  | apply_jmp_patch p d => exact .patch p d
  | apply_jmp_patch_address p d => exact .patchAddress p d
end

/-- Absolute fields of `s'` are those of `s` and the positions of placed address objects. -/
def AbsFrom (xs : List (Page × DataType × DestLabel)) (s s' : JitMemory) : Prop :=
  ∀ l p pos, .abs p pos ∈ targets s' l → .abs p pos ∈ targets s l
    ∨ ∃ l', (p, .absAddress l, l') ∈ xs ∧ s'.locOf l' = some (p, pos)

theorem AbsFrom.trans {xs ys s s1 s2} (h1 : AbsFrom xs s s1) (h2 : AbsFrom ys s1 s2)
    (hl : ∀ p d l, (p, d, l) ∈ xs → s2.locOf l = s1.locOf l) : AbsFrom (xs ++ ys) s s2 := by
  intro l p pos h
  rcases h2 l p pos h with h | ⟨l', h, e⟩
  · rcases h1 l p pos h with h | ⟨l', h, e⟩
    · exact .inl h
    · exact .inr ⟨l', List.mem_append_left _ h, by rw [hl _ _ _ h]; exact e⟩
  · exact .inr ⟨l', List.mem_append_right _ h, e⟩

theorem AbsFrom.mono {xs ys s s'} (h : AbsFrom xs s s') (hs : ∀ x ∈ xs, x ∈ ys) : AbsFrom ys s s' := by
  intro l p pos ht
  rcases h l p pos ht with h | ⟨l', h, e⟩
  · exact .inl h
  · exact .inr ⟨l', hs _ h, e⟩

/-- A computation after another one: either the first one panics, or the objects placed by the first
    stay where they are. -/
theorem AbsFrom.bind {α β} {m : M α} {f : α → M β} {xs ys s} (h1 : AbsFrom xs s (m s).state)
    (h2 : ∀ a s1, m s = .ok a s1 → AbsFrom ys s1 (f a s1).state
      ∧ ∀ p d l, (p, d, l) ∈ xs → (f a s1).state.locOf l = s1.locOf l) :
    AbsFrom (xs ++ ys) s ((m >>= f) s).state := by
  rw [M.bind_def]
  cases e : m s with
  | ok a s1 => rw [e] at h1; exact h1.trans (h2 a s1 e).1 (h2 a s1 e).2
  | panic er s1 => rw [e] at h1; exact h1.mono fun _ h => List.mem_append_left _ h

theorem resolveOne_abs (p d l s) : AbsFrom [(p, d, l)] s (resolveOne p d l s).state := by
  have key : ∀ {m : M Unit}, NoAbs m → AbsFrom [(p, d, l)] s (m s).state :=
    fun hm x q pos ht => .inl (hm s x q pos ht)
  cases d with
  | u64 v => exact key (.bind (.alignOp 4 p) fun _ => .bind (.bind_label_with_page p l) fun _ => .emitq _ _)
  | u32 v => exact key (.bind (.alignOp 2 p) fun _ => .bind (.bind_label_with_page p l) fun _ => .emitl _ _)
  | bytes n => exact key (.bind (.alignOp 4 p) fun _ => .bind (.bind_label_with_page p l) fun _ => .emitZeros _ _)
  | align8 => exact key (.bind (.alignOp 3 p) fun _ => .bind_label_with_page p l)
  | absAddress x =>
    intro y q pos hy
    simp only [resolveOne] at hy ⊢
    have n1 := (NoAbs.alignOp 3 p) s
    change ∀ l p_1 pos, .abs p_1 pos ∈ targets (MemPage.align8 p s).state l → _ at n1
    cases h1 : MemPage.align8 p s with
    | panic e s1 => rw [panic_bind h1] at hy; rw [h1] at n1; exact .inl (n1 y q pos hy)
    | ok u s1 =>
    rw [ok_bind h1] at hy ⊢
    rw [h1] at n1
    have n2 := (NoAbs.bind_label_with_page p l) s1
    cases h2 : bind_label_with_page p l s1 with
    | panic e s2 => rw [panic_bind h2] at hy; rw [h2] at n2; exact .inl (n1 y q pos (n2 y q pos hy))
    | ok u s2 =>
    rw [ok_bind h2] at hy ⊢
    rw [h2] at n2
    -- position of `l`
    have hloc : s2.locOf l = some (p, (s2.pages p).counter) := by
      simp only [bind_label_with_page] at h2
      obtain ⟨_, t, ht, h2⟩ := bind_ok h2
      obtain ⟨c, t', ht', h2⟩ := bind_ok h2
      cases ht'
      simp only [modifyLabel] at h2
      split at h2
      · rename_i hlt
        cases h2
        rw [locOf_modify]
        simp [hlt]
      · cases h2
    have k3 := Keeps.save_absolute_reloc (B := fun _ => False) p x s2
    cases h3 : save_absolute_reloc p x s2 with
    | panic e s3 =>
      rw [panic_bind h3] at hy
      simp only [save_absolute_reloc] at h3
      rw [ok_bind (s1 := s2) (by rfl)] at h3
      simp only [modifyLabel] at h3
      split at h3
      · cases h3
      · cases h3; exact .inl (n1 y q pos (n2 y q pos hy))
    | ok u s3 =>
    rw [ok_bind h3] at hy ⊢
    rw [h3] at k3
    have n4 := (NoAbs.emitq p 0) s3
    have k4 := Keeps.emitq (B := fun _ => False) p 0 s3
    have hy3 := n4 y q pos hy
    have hloc' : (MemPage.emitq p 0 s3).state.locOf l = some (p, (s2.pages p).counter) :=
      (k4.loc l id).trans ((k3.loc l id).trans hloc)
    simp only [save_absolute_reloc] at h3
    rw [ok_bind (s1 := s2) (by rfl)] at h3
    simp only [modifyLabel] at h3
    split at h3
    · rename_i hlt
      cases h3
      simp only [targets, List.getElem?_modify] at hy3
      rcases Option.eq_none_or_eq_some (s2.labels[y]?) with e | ⟨i, e⟩
      · simp [e] at hy3
      · simp only [e, Option.map_eq_map, Option.map_some] at hy3
        split at hy3
        · rename_i exy
          subst exy
          simp only [List.mem_append, List.mem_singleton, TargetType.abs.injEq] at hy3
          rcases hy3 with hy3 | ⟨rfl, rfl⟩
          · exact .inl (n1 x q pos (n2 x q pos (by simp only [targets, Res.state_ok, e]; exact hy3)))
          · exact .inr ⟨l, by simp, hloc'⟩
        · exact .inl (n1 y q pos (n2 y q pos (by simp only [targets, Res.state_ok, e]; exact hy3)))
    · cases h3

theorem resolveList_abs {p xs} (hn : (xs.map Prod.snd).Nodup) (s) :
    AbsFrom (xs.map fun x => (p, x.1, x.2)) s (resolveList p xs s).state := by
  induction xs generalizing s with
  | nil => exact fun _ _ _ h => .inl h
  | cons x xs ih =>
    simp only [List.map_cons, List.nodup_cons, List.mem_map, not_exists, not_and] at hn
    simp only [resolveList]
    refine AbsFrom.bind (xs := [(p, x.1, x.2)]) (resolveOne_abs p x.1 x.2 s) fun _ s1 _ => ⟨ih hn.2 s1, ?_⟩
    intro q d l hm
    simp only [List.mem_singleton, Prod.mk.injEq] at hm
    refine (Keeps.resolveList (B := fun l => ∃ y ∈ xs, y.2 = l) p xs (fun d l h => ⟨_, h, rfl⟩) s1).loc l ?_
    rintro ⟨y, hy, e⟩
    exact hn.1 y hy (by rw [e, hm.2.2])

/-- Labels of one pending list. -/
theorem resolveConstantsOf_abs {p s} (hn : ((s.pages p).constants.map Prod.snd).Nodup) :
    AbsFrom ((s.pages p).constants.map fun x => (p, x.1, x.2)) s (resolveConstantsOf p s).state :=
  fun l q pos ht => resolveList_abs hn (s.updPage p fun pg => { pg with constants := [] }) l q pos ht

theorem resolveDataOf_abs {p s} (hn : ((s.pages p).data.map Prod.snd).Nodup) :
    AbsFrom ((s.pages p).data.map fun x => (DATA_PAGE, x.1, x.2)) s (resolveDataOf p s).state :=
  fun l q pos ht => resolveList_abs hn (s.updPage p fun pg => { pg with data := [] }) l q pos ht

theorem constantsOf_keep {p s l} (h : l ∉ (s.pages p).constants.map Prod.snd) : (resolveConstantsOf p s).state.locOf l = s.locOf l :=
  (constantsOf_state p s).loc l fun ⟨_, hm⟩ => h (List.mem_map.2 ⟨_, hm, rfl⟩)

theorem dataOf_keep {p s l} (h : l ∉ (s.pages p).data.map Prod.snd) : (resolveDataOf p s).state.locOf l = s.locOf l :=
  (dataOf_state p s).loc l fun ⟨_, hm⟩ => h (List.mem_map.2 ⟨_, hm, rfl⟩)

/-- What keeps the positions of labels keeps them when it is done after another such computation. -/
theorem loc_bind {α β} {m : M α} {f : α → M β} {s : JitMemory} {l : DestLabel} (h1 : (m s).state.locOf l = s.locOf l)
    (h2 : ∀ a s1, m s = .ok a s1 → (f a s1).state.locOf l = s1.locOf l) : ((m >>= f) s).state.locOf l = s.locOf l := by
  rw [M.bind_def]
  cases e : m s with
  | ok a s1 => rw [e] at h1; exact (h2 a s1 e).trans h1
  | panic er s1 => rw [e] at h1; exact h1

theorem placeAll_abs {s : JitMemory} (hn : Distinct s) : AbsFrom (objects s) s (placeAll s).state := by
  simp only [Distinct, objects, List.map_append, List.map_map, Function.comp_def] at hn
  have n0 := (List.nodup_append.1 hn).1
  have hn1 := (List.nodup_append.1 hn).2
  have n1 := (List.nodup_append.1 hn1.1).1
  have hn2 := (List.nodup_append.1 hn1.1).2
  have n2 := (List.nodup_append.1 hn2.1).1
  have hn3 := (List.nodup_append.1 hn2.1).2
  have mem : ∀ {p p' : Page} {d l} {xs : List (DataType × DestLabel)},
      (p', d, l) ∈ xs.map (fun x => (p, x.1, x.2)) → l ∈ xs.map fun x => x.2 := by
    intro p p' d l xs h
    obtain ⟨y, hy, e⟩ := List.mem_map.1 h
    simp only [Prod.mk.injEq] at e
    exact List.mem_map.2 ⟨y, hy, e.2.2⟩
  simp only [placeAll, resolve_constants, resolve_data, bind_assoc, objects]
  have c1 : ∀ {s1 : JitMemory}, (resolveConstantsOf 0 s) = .ok () s1 →
      (s1.pages 1).constants = (s.pages 1).constants ∧ ∀ q, (s1.pages q).data = (s.pages q).data := by
    intro s1 e
    have k := constantsOf_state 0 s
    rw [e] at k
    refine ⟨(k.constants 1).trans rfl, fun q => (k.data q).trans ?_⟩
    simp only [JitMemory.updPage]; split
    · rename_i h; subst h; rfl
    · rfl
  have c2 : ∀ {s1 s2 : JitMemory}, (resolveConstantsOf 1 s1) = .ok () s2 → ∀ q, (s2.pages q).data = (s1.pages q).data := by
    intro s1 s2 e q
    have k := constantsOf_state 1 s1
    rw [e] at k
    refine (k.data q).trans ?_
    simp only [JitMemory.updPage]; split
    · rename_i h; subst h; rfl
    · rfl
  have c3 : ∀ {s2 s3 : JitMemory}, (resolveDataOf 0 s2) = .ok () s3 → (s3.pages 1).data = (s2.pages 1).data := by
    intro s2 s3 e
    have k := dataOf_state 0 s2
    rw [e] at k
    exact (k.data 1).trans rfl
  refine AbsFrom.bind (resolveConstantsOf_abs n0) fun _ s1 e1 => ?_
  obtain ⟨d1, d1'⟩ := c1 e1
  have tail1 : ∀ {s2}, (resolveConstantsOf 1 s1) = .ok () s2 →
      (s2.pages 0).data = (s.pages 0).data ∧ (s2.pages 1).data = (s.pages 1).data := fun e =>
    ⟨(c2 e 0).trans (d1' 0), (c2 e 1).trans (d1' 1)⟩
  constructor
  · rw [← d1]
    refine AbsFrom.bind (resolveConstantsOf_abs (by rw [d1]; exact n1)) fun _ s2 e2 => ?_
    obtain ⟨d2, d2'⟩ := tail1 e2
    constructor
    · rw [← d2]
      refine AbsFrom.bind (resolveDataOf_abs (by rw [d2]; exact n2)) fun _ s3 e3 => ?_
      have d3 := (c3 e3).trans d2'
      constructor
      · rw [← d3]
        exact resolveDataOf_abs (by rw [d3]; exact hn3.1)
      · intro p d l h
        refine dataOf_keep ?_
        rw [d3]
        rw [d2] at h
        exact fun h' => hn3.2 _ (mem h) _ h' rfl
    · intro p d l h
      rw [d1] at h
      refine loc_bind (dataOf_keep ?_) fun _ s3 e3 => dataOf_keep ?_
      · rw [d2]; exact fun h' => hn2.2 _ (mem h) _ (List.mem_append_left _ h') rfl
      · rw [c3 e3, d2']; exact fun h' => hn2.2 _ (mem h) _ (List.mem_append_right _ h') rfl
  · intro p d l h
    refine loc_bind (constantsOf_keep ?_) fun _ s2 e2 => loc_bind (dataOf_keep ?_) fun _ s3 e3 => dataOf_keep ?_
    · rw [d1]; exact fun h' => hn1.2 _ (mem h) _ (List.mem_append_left _ h') rfl
    · rw [(tail1 e2).1]
      exact fun h' => hn1.2 _ (mem h) _ (List.mem_append_right _ (List.mem_append_left _ h')) rfl
    · rw [c3 e3, (tail1 e2).2]
      exact fun h' => hn1.2 _ (mem h) _ (List.mem_append_right _ (List.mem_append_right _ h')) rfl

/-! ### Simulation -/

/-- Pending objects have distinct labels, and absolute fields are in `P`. -/
structure AbsInv (P : Page → Nat → Prop) (s : JitMemory) : Prop where
  nodup : ((objects s).map fun x => x.2.2).Nodup
  fresh : ∀ x ∈ objects s, (x.2.2 : Nat) < s.labels.length
  fields : ∀ l p pos, .abs p pos ∈ targets s l → P p pos

theorem objects_waits {s p d l} (h : (p, d, l) ∈ objects s) : Waits s p d l := by
  simp only [objects, List.mem_append, List.mem_map, Prod.mk.injEq] at h
  rcases h with ⟨x, hx, rfl, rfl, rfl⟩ | ⟨x, hx, rfl, rfl, rfl⟩ | ⟨x, hx, rfl, rfl, rfl⟩ | ⟨x, hx, rfl, rfl, rfl⟩
  · exact .inl hx
  · exact .inl hx
  · exact .inr ⟨rfl, 0, hx⟩
  · exact .inr ⟨rfl, 1, hx⟩

theorem FinalRun.objects {base s s'} (f : FinalRun base s s') : objects s' = [] := by
  simp only [Monoasm.objects, f.pages 0 (by decide), f.pages 1 (by decide)]
  simp

theorem absInv_new (P base mem) : AbsInv P (JitMemory.new base mem) := by
  refine ⟨?_, ?_, ?_⟩
  · simp [objects, JitMemory.new, MemPage.new]
  · simp [objects, JitMemory.new, MemPage.new]
  · intro l p pos h; simp [targets, JitMemory.new] at h

theorem locOf_address {base s l p pos} (hi : Inv base s) (hb : 0 < base) (h : s.locOf l = some (p, pos)) :
    HasAddress s l (base + PAGE_SIZE * p + pos) := by
  have h1 := get_label_u64_eq h
  have h2 := get_label_address_eq h (by rw [hi.contents]; omega)
  rw [hi.contents] at h1 h2
  exact ⟨h2, h1⟩

/-- Before and after the fields are filled in. -/
theorem finalize_split {s s'} (h : finalize s = .ok () s') : ∃ sa sr sb sc sd,
    forPages openBlock s = .ok () sa ∧ resolve_constants sa = .ok () sr ∧ resolve_data sr = .ok () sb ∧
    forPages closeBlock sb = .ok () sc ∧ fill_relocs sc = .ok () sd ∧ forPages topBlock sd = .ok () s' := by
  simp only [finalize] at h
  obtain ⟨_, sa, ha, h⟩ := bind_ok h
  obtain ⟨_, sr, hr, h⟩ := bind_ok h
  obtain ⟨_, sb, hb, h⟩ := bind_ok h
  obtain ⟨_, sc, hc, h⟩ := bind_ok h
  obtain ⟨_, sd, hd, he⟩ := bind_ok h
  exact ⟨sa, sr, sb, sc, sd, ha, hr, hb, hc, hd, he⟩

/-- A `finalize` that returns leaves the labels where they were when the objects had been placed. -/
theorem placing_loc {s s'} (h : finalize s = .ok () s') (l : DestLabel) : s'.locOf l = (placing s).state.locOf l := by
  obtain ⟨sa, sr, sb, sc, sd, ha, hr, hb, hc, hd, he⟩ := finalize_split h
  have mc : Sim sb sc := sim_forPages (f := closeBlock) (fun _ => ⟨rfl, rfl, rfl, rfl⟩) hc
  have me : Sim sd s' := sim_forPages (f := topBlock) (fun _ => ⟨rfl, rfl, rfl, rfl⟩) he
  rw [me.locOf, (keepF_fill_relocs hd).loc l id, mc.locOf]
  simp only [placing]
  rw [ok_bind ha, ok_bind hr, hb, Res.state_ok]

theorem placing_inv {base s} (hi : Inv base s) : Inv base (placing s).state := by
  obtain ⟨sa, ha⟩ : ∃ sa, JitMemory.forPages openBlock s = .ok () sa := ⟨_, rfl⟩
  have ma : Sim s sa := sim_forPages (f := openBlock) (fun _ => ⟨rfl, rfl, rfl, rfl⟩) ha
  have e : placing s = placeAll sa := by
    simp only [placing]; rw [ok_bind ha]; rfl
  rw [e]
  exact ((Grows.placeAll (base := base)) sa (ma.inv hi)).1

/-- Absolute fields when the objects have been placed, or placing them has failed. -/
theorem placing_abs {P base s} (hi : Inv base s) (hb : 0 < base) (w : AbsInv P s)
    (hP : ∀ p pos, (∃ q x l, Waits s q (.absAddress x) l ∧ HasAddress (placing s).state l (base + PAGE_SIZE * p + pos)) → P p pos)
    {l p pos} (ht : .abs p pos ∈ targets (placing s).state l) : P p pos := by
  obtain ⟨sa, ha⟩ : ∃ sa, JitMemory.forPages openBlock s = .ok () sa := ⟨_, rfl⟩
  have ma : Sim s sa := sim_forPages (f := openBlock) (fun _ => ⟨rfl, rfl, rfl, rfl⟩) ha
  have e : placing s = placeAll sa := by
    simp only [placing]; rw [ok_bind ha]; rfl
  have g := (Grows.placeAll (base := base)) sa (ma.inv hi)
  have af := placeAll_abs (s := sa) (by rw [Distinct, ma.objects]; exact w.nodup)
  rw [ma.objects] at af
  rw [e] at ht hP
  rcases af l p pos ht with ht | ⟨l', hm, e⟩
  · rw [ma.targets] at ht
    exact w.fields l p pos ht
  · exact hP p pos ⟨p, l, l', objects_waits hm, locOf_address g.1 hb e⟩

theorem absInv_op {P base s} {op : Op} (hi : Inv base s) (hb : 0 < base) (w : AbsInv P s)
    (hP : op = .finalize → ∀ p pos, (∃ q x l, Waits s q (.absAddress x) l ∧
      HasAddress (placing s).state l (base + PAGE_SIZE * p + pos)) → P p pos) :
    AbsInv P (op.run s).state := by
  by_cases hfin : op = .finalize
  · subst hfin
    have hP := hP rfl
    have pa := fun l p pos => placing_abs (l := l) (p := p) (pos := pos) hi hb w hP
    simp only [Op.run]
    obtain ⟨sa, ha⟩ : ∃ sa, JitMemory.forPages openBlock s = .ok () sa := ⟨_, rfl⟩
    have ma : Sim s sa := sim_forPages (f := openBlock) (fun _ => ⟨rfl, rfl, rfl, rfl⟩) ha
    have e : placing s = placeAll sa := by
      simp only [placing]; rw [ok_bind ha]; rfl
    rw [e] at pa
    rw [finalize_placeAll, ok_bind ha]
    have tk := ma.takes.trans (Taking.placeAll sa (ma.takes.distinct w.nodup))
    cases eb : placeAll sa with
    | panic er sb =>
      rw [eb] at tk pa
      rw [panic_bind eb]
      refine ⟨tk.distinct w.nodup, fun x hx => ?_, pa⟩
      show (x.2.2 : Nat) < sb.labels.length
      rw [show sb.labels.length = _ from tk.len]
      exact w.fresh x (tk.sub.subset hx)
    | ok u sb =>
      rw [eb] at pa
      rw [ok_bind eb]
      obtain ⟨sc, hc⟩ : ∃ sc, JitMemory.forPages closeBlock sb = .ok () sc := ⟨_, rfl⟩
      have mc : Sim sb sc := sim_forPages (f := closeBlock) (fun _ => ⟨rfl, rfl, rfl, rfl⟩) hc
      have hob : objects sc = [] := by rw [mc.objects]; exact placeAll_lists eb
      rw [ok_bind hc]
      cases ef : JitMemory.fill_relocs sc with
      | panic er sd =>
        rw [panic_bind ef]
        obtain ⟨f1, f2⟩ := fill_panics ef
        have ho : objects sd = [] := by
          rw [← hob]; simp only [objects, (f2 0).1, (f2 0).2, (f2 1).1, (f2 1).2]
        refine ⟨by rw [Res.state_panic, ho]; simp, by rw [Res.state_panic, ho]; simp, ?_⟩
        intro l p pos ht
        simp only [Res.state_panic, targets, f1] at ht
        simp at ht
      | ok u sd =>
        rw [ok_bind ef]
        obtain ⟨se, he⟩ : ∃ se, JitMemory.forPages topBlock sd = .ok () se := ⟨_, rfl⟩
        have me : Sim sd se := sim_forPages (f := topBlock) (fun _ => ⟨rfl, rfl, rfl, rfl⟩) he
        rw [he]
        have ho : objects se = [] := by
          have hf : finalize s = .ok () se := by
            rw [finalize_placeAll, ok_bind ha, ok_bind eb, ok_bind hc, ok_bind ef, he]
          exact (finalize_run hi hf).objects
        refine ⟨by rw [Res.state_ok, ho]; simp, by rw [Res.state_ok, ho]; simp, ?_⟩
        intro l p pos ht
        refine pa l p pos ?_
        rw [Res.state_ok] at ht ⊢
        rw [me.targets] at ht
        rw [← mc.targets]
        simp only [targets, fill_relocs_labels ef, List.getElem?_map] at ht ⊢
        rcases Option.eq_none_or_eq_some (sc.labels[l]?) with e | ⟨i, e⟩
        · simp [e] at ht
        · simp only [e, Option.map_some] at ht ⊢
          simp only [LabelInfo.filled] at ht
          split at ht
          · cases ht
          · exact ht
  · have na := NoAbs.op hfin s
    by_cases hn : ∃ c, op = .new c
    · obtain ⟨c, rfl⟩ := hn
      rw [new_state] at na ⊢
      obtain ⟨xs, hx, hlen, hperm⟩ := objects_newState (c := c) hi
      have hll : (newState c s).labels.length = s.labels.length + 1 := by simp [newState]
      refine ⟨?_, ?_, fun l p pos ht => w.fields l p pos (na l p pos ht)⟩
      · rw [(hperm.map _).nodup_iff, List.map_append, List.nodup_append]
        refine ⟨w.nodup, ?_, ?_⟩
        · match xs, hlen with
          | [], _ => simp
          | [x], _ => simp
        · intro a ha b hb e
          obtain ⟨x, hx1, rfl⟩ := List.mem_map.1 ha
          obtain ⟨y, hy1, rfl⟩ := List.mem_map.1 hb
          have h1 := w.fresh x hx1
          have h2 := hx y hy1
          rw [e, h2] at h1
          exact Nat.lt_irrefl _ h1
      · intro x hx'
        rw [hll]
        rcases List.mem_append.1 (hperm.mem_iff.1 hx') with h1 | h1
        · exact Nat.lt_succ_of_lt (w.fresh x h1)
        · rw [hx x h1]; exact Nat.lt_succ_self _
    · have hn' : ∀ c, op ≠ .new c := fun c e => hn ⟨c, e⟩
      have hl := fun p => keeps_lists (s := s) hn' hfin p
      have ho : objects (op.run s).state = objects s := by
        simp only [objects, (hl 0).1, (hl 1).1, (hl 0).2, (hl 1).2]
      have hlen := op_len (s := s) fun e => absurd e hfin
      refine ⟨by rw [ho]; exact w.nodup, ?_, fun l p pos ht => w.fields l p pos (na l p pos ht)⟩
      rw [ho]; intro x hx; rw [hlen]; exact Nat.lt_of_lt_of_le (w.fresh x hx) (Nat.le_add_right _ _)

section
variable {D : Nat → Byte → Byte → Prop} {b1 b2 : Nat}

theorem RelRes.seq {α β} {Q : α → α → Prop} {R : β → β → Prop} {m1 m2 : M α} {f1 f2 : α → M β} {s1 s2}
    (hm : RelRes D b1 b2 Q (m1 s1) (m2 s2))
    (hf : ∀ a b t1 t2, m1 s1 = .ok a t1 → m2 s2 = .ok b t2 → Q a b → Shift D b1 b2 t1 t2 →
      RelRes D b1 b2 R (f1 a t1) (f2 b t2)) : RelRes D b1 b2 R ((m1 >>= f1) s1) ((m2 >>= f2) s2) := by
  simp only [M.bind_def]
  revert hm hf
  generalize m1 s1 = r1
  generalize m2 s2 = r2
  intro hm hf
  cases hm with
  | ok h hs => exact hf _ _ _ _ rfl rfl h hs
  | panic e hs => exact .panic e hs

theorem RelM.op (hD : ∀ x b, D x b b) (h1 : 0 < b1) (h2 : 0 < b2) {op : Op} (hf : op ≠ .finalize)
    (hp : ∀ a l, op = .apply_jmp_patch_address a l → b1 ≤ a) :
    RelM D b1 b2 Eq op.run (op.move b1 b2).run := by
  cases op with
  | select_page p => exact .select_page p
  | cur c => exact .bind .cur fun _ _ e => e ▸ .pageCall hD _ c
  | page p c => exact .seq (.checkPage p) (.pageCall hD p c)
  | emit bs => simp only [Op.move]; rw [Op.run_items (op := .emit bs) rfl]; exact .items hD _
  | new c => exact .bind (.newCall c) fun _ _ _ => .pure rfl
  | bind_label l => exact .bind_label l
  | bind_label_with_page p l => exact .bind_label_with_page p l
  | save_reloc l off => exact .save_reloc l off
  | enc c => simp only [Op.move]; rw [Op.run_items (op := .enc c) rfl]; exact .items hD _
  | inst i =>
    obtain ⟨its, e⟩ : ∃ its, (Op.inst i).itemsOf = some its := by
      simp only [Op.itemsOf]; split <;> exact ⟨_, rfl⟩
    simp only [Op.move]
    rw [Op.run_items e]; exact .items hD _
  | finalize => exact absurd rfl hf
  | apply_jmp_patch p d => exact .patch hD h1 h2 p d
  | apply_jmp_patch_address a d =>
    have : b1 ≤ a := hp a d rfl
    obtain ⟨y, rfl⟩ := Nat.exists_eq_add_of_le this
    simp only [Op.move, Nat.add_sub_cancel_left]
    exact .patch_address hD h1 h2 y d

theorem shift_finalize (hD : ∀ x b, D x b b) {s1 s2 : JitMemory} (hs : Shift D b1 b2 s1 s2)
    (ht : ∀ l t, t ∈ targets (placing s1).state l → AbsOk D t) :
    RelRes D b1 b2 Eq (finalize s1) (finalize s2) := by
  simp only [finalize]
  simp only [placing] at ht
  refine .seq (Q := Eq) (RelM.forPages (f := openBlock) (fun _ => rfl) (fun _ _ => rfl) s1 s2 hs) ?_
  intro _ _ t1 t2 e1 _ _ hs
  rw [ok_bind e1] at ht
  refine .seq (Q := Eq) (RelM.seq (RelM.resolveConstantsOf hD 0) (RelM.resolveConstantsOf hD 1) _ _ hs) ?_
  intro _ _ t1 t2 e1 _ _ hs
  rw [ok_bind e1] at ht
  refine .seq (Q := Eq) (RelM.seq (RelM.resolveDataOf hD 0) (RelM.resolveDataOf hD 1) _ _ hs) ?_
  intro _ _ t1 t2 e1 _ _ hs
  rw [e1] at ht
  refine .seq (Q := Eq) (RelM.forPages (f := closeBlock) (fun _ => rfl) (fun _ _ => rfl) _ _ hs) ?_
  intro _ _ t1 t2 e1 _ _ hs
  have mc : Sim _ t1 := sim_forPages (f := closeBlock) (fun _ => ⟨rfl, rfl, rfl, rfl⟩) e1
  refine .seq (Q := Eq) (relRes_fill_relocs hD hs ?_) ?_
  · intro r hr t h
    obtain ⟨l, hl⟩ := List.mem_iff_getElem?.1 hr
    refine ht l t ?_
    rw [Res.state_ok, ← mc.targets]
    simp only [targets, hl]; exact h
  intro _ _ t1 t2 e1 _ _ hs
  exact RelM.forPages (f := topBlock) (fun _ => rfl) (fun _ _ => rfl) _ _ hs

/-- One call in both runs. -/
theorem moved_op (hD : ∀ x b, D x b b) (h1 : 0 < b1) (h2 : 0 < b2) {P : Page → Nat → Prop}
    (hPD : ∀ p pos, P p pos → ∀ j, j < 8 → ∀ v w, D (PAGE_SIZE * p + (pos + j)) v w) {op : Op} {s1 s2}
    (hi : Inv b1 s1) (w : AbsInv P s1)
    (hP : op = .finalize → ∀ p pos, (∃ q x l, Waits s1 q (.absAddress x) l ∧
      HasAddress (placing s1).state l (b1 + PAGE_SIZE * p + pos)) → P p pos)
    (hp : ∀ a l, op = .apply_jmp_patch_address a l → b1 ≤ a) (hs : Shift D b1 b2 s1 s2) :
    RelRes D b1 b2 Eq (op.run s1) ((op.move b1 b2).run s2) := by
  by_cases hfin : op = .finalize
  · subst hfin
    refine shift_finalize hD hs ?_
    intro l t ht
    cases t with
    | rel p off pos => trivial
    | abs p pos => exact hPD p pos (placing_abs hi h1 w (hP rfl) ht)
  · exact RelM.op hD h1 h2 hfin hp s1 s2 hs

theorem shift_caught (hD : ∀ x b, D x b b) (h1 : 0 < b1) (h2 : 0 < b2) {P : Page → Nat → Prop}
    (hPD : ∀ p pos, P p pos → ∀ j, j < 8 → ∀ v w, D (PAGE_SIZE * p + (pos + j)) v w) {h : List Op} {s1 s2}
    (hi : Inv b1 s1) (w : AbsInv P s1)
    (hP : ∀ p pos, AbsSlot (b1 + PAGE_SIZE * p + pos) s1 h → P p pos)
    (hp : PatchesFrom b1 h) (hs : Shift D b1 b2 s1 s2) :
    Shift D b1 b2 (runCaught h s1) (runCaught (h.map (Op.move b1 b2)) s2) ∧ AbsInv P (runCaught h s1) := by
  induction h generalizing s1 s2 with
  | nil => exact ⟨hs, w⟩
  | cons op ops ih =>
    have hP1 : op = .finalize → ∀ p pos, (∃ q x l, Waits s1 q (.absAddress x) l ∧
        HasAddress (placing s1).state l (b1 + PAGE_SIZE * p + pos)) → P p pos :=
      fun e p pos h => hP p pos (.inl ⟨e, h⟩)
    have hr := moved_op hD h1 h2 hPD hi w hP1 (fun a l e => hp a l (by simp [e])) hs
    rw [List.map_cons, runCaught_cons, runCaught_cons]
    exact ih (inv_op hi op) (absInv_op hi h1 w hP1) (fun p pos h => hP p pos (.inr h))
      (fun a l h => hp a l (by simp [h])) hr.state

theorem shift_new (m1 m2 : Nat → Byte) (h : ∀ x, D x (m1 (b1 + x)) (m2 (b2 + x))) :
    Shift D b1 b2 (JitMemory.new b1 m1) (JitMemory.new b2 m2) :=
  ⟨rfl, rfl, (inv_new b1 m1).contents, fun _ => rfl, h⟩

end

end Monoasm
