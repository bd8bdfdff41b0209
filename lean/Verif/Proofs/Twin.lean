import Verif.Proofs.Interleave
import Verif.Proofs.Frame
/-
  Two states that differ in the numbering of the labels only.
-/

set_option linter.unusedSimpArgs false

namespace Monoasm
open JitMemory Spec

/-- The labels of the objects are held by variables of `D`. -/
def Named (D : Nat → Prop) (X : List (DataType × Nat)) : Prop := ∀ d ∈ X, ∀ x ∈ d.2 :: d.1.labels, D x

/-- The page record with other lists of waiting objects. -/
def withLists (pg : MemPage) (f : Nat → DestLabel) (X Y : List (DataType × Nat)) : MemPage :=
  { pg with constants := X.map (renObj f), data := Y.map (renObj f) }

/-- `s1` and `s2` differ in the numbers of the labels: variable `x` holds `f1 x` and `f2 x`. -/
structure Twin (D : Nat → Prop) (f1 f2 : Nat → DestLabel) (s1 s2 : JitMemory) : Prop where
  len : s1.labels.length = s2.labels.length
  lt1 : ∀ x, D x → (f1 x : Nat) < s1.labels.length
  lt2 : ∀ x, D x → (f2 x : Nat) < s2.labels.length
  inj1 : ∀ x y, D x → D y → f1 x = f1 y → x = y
  inj2 : ∀ x y, D x → D y → f2 x = f2 y → x = y
  surj1 : ∀ l : Nat, l < s1.labels.length → ∃ x, D x ∧ f1 x = l
  surj2 : ∀ l : Nat, l < s2.labels.length → ∃ x, D x ∧ f2 x = l
  pages : ∀ p, ∃ pg X Y, Named D X ∧ Named D Y ∧ s1.pages p = withLists pg f1 X Y ∧ s2.pages p = withLists pg f2 X Y
  mem : s1.mem = s2.mem
  loc : ∀ x, D x → s1.locOf (f1 x) = s2.locOf (f2 x)
  tgt : ∀ x, D x → ∀ t, t ∈ targets s1 (f1 x) ↔ t ∈ targets s2 (f2 x)

section
variable {D : Nat → Prop} {f1 f2 : Nat → DestLabel} {s1 s2 : JitMemory}

theorem Twin.contents (h : Twin D f1 f2 s1 s2) (p) : (s1.pages p).contents = (s2.pages p).contents := by
  obtain ⟨pg, X, Y, _, _, e1, e2⟩ := h.pages p
  rw [e1, e2]; rfl

theorem Twin.counter (h : Twin D f1 f2 s1 s2) (p) : (s1.pages p).counter = (s2.pages p).counter := by
  obtain ⟨pg, X, Y, _, _, e1, e2⟩ := h.pages p
  rw [e1, e2]; rfl

/-- `m1` and `m2` have the same effect. -/
def TwinM (D : Nat → Prop) (f1 f2 : Nat → DestLabel) (m1 m2 : M Unit) : Prop :=
  ∀ s1 s2, Twin D f1 f2 s1 s2 →
    (∃ t1 t2, m1 s1 = .ok () t1 ∧ m2 s2 = .ok () t2 ∧ Twin D f1 f2 t1 t2)
    ∨ ((∃ e t, m1 s1 = .panic e t) ∧ ∃ e t, m2 s2 = .panic e t)

theorem TwinM.bind {m1 m2 k1 k2 : M Unit} (h : TwinM D f1 f2 m1 m2) (hk : TwinM D f1 f2 k1 k2) :
    TwinM D f1 f2 (do m1; k1) (do m2; k2) := by
  intro s1 s2 hs
  rcases h s1 s2 hs with ⟨t1, t2, e1, e2, ht⟩ | ⟨⟨e, t, e1⟩, e', t', e2⟩
  · rcases hk t1 t2 ht with ⟨u1, u2, e3, e4, hu⟩ | ⟨⟨e, t, e3⟩, e', t', e4⟩
    · exact .inl ⟨u1, u2, (ok_bind e1).trans e3, (ok_bind e2).trans e4, hu⟩
    · exact .inr ⟨⟨e, t, (ok_bind e1).trans e3⟩, e', t', (ok_bind e2).trans e4⟩
  · exact .inr ⟨⟨e, t, panic_bind e1⟩, e', t', panic_bind e2⟩

theorem TwinM.pure : TwinM D f1 f2 (Pure.pure ()) (Pure.pure ()) := fun s1 s2 h => .inl ⟨s1, s2, rfl, rfl, h⟩

/-- Both states change bytes and page records (not the lists) in the same way. -/
theorem Twin.update (h : Twin D f1 f2 s1 s2) (m : Nat → Byte) (g : Page → MemPage → MemPage)
    (hg : ∀ p pg f X Y, g p (withLists pg f X Y) = withLists (g p pg) f X Y) :
    Twin D f1 f2 { s1 with mem := m, pages := fun p => g p (s1.pages p) } { s2 with mem := m, pages := fun p => g p (s2.pages p) } :=
  ⟨h.len, h.lt1, h.lt2, h.inj1, h.inj2, h.surj1, h.surj2, by
    intro p
    obtain ⟨pg, X, Y, hX, hY, e1, e2⟩ := h.pages p
    exact ⟨g p pg, X, Y, hX, hY, by simp only [e1, hg], by simp only [e2, hg]⟩, rfl, h.loc, h.tgt⟩

theorem TwinM.emitRes (p bs) : TwinM D f1 f2 (emitRes p bs) (emitRes p bs) := by
  intro s1 s2 h
  simp only [Monoasm.emitRes, h.counter]
  split
  · refine .inl ⟨_, _, rfl, rfl, ?_⟩
    have := h.update (putBytes s1.mem ((s1.pages p).contents + (s1.pages p).counter) bs)
      (fun q pg => if q = p then { pg with counter := pg.counter + bs.length } else pg)
      (by intro q pg f X Y; simp only [withLists]; split <;> rfl)
    have e : putBytes s2.mem ((s2.pages p).contents + (s2.pages p).counter) bs
        = putBytes s1.mem ((s1.pages p).contents + (s1.pages p).counter) bs := by rw [h.mem, h.contents, h.counter]
    simp only [emitted]
    rw [e]
    exact this
  · exact .inr ⟨⟨_, _, rfl⟩, _, _, rfl⟩

theorem TwinM.emitb (p v) : TwinM D f1 f2 (MemPage.emitb p v) (MemPage.emitb p v) := by
  have : MemPage.emitb p v = Monoasm.emitRes p [v] := funext fun s => emitb_run p v s
  rw [this]; exact .emitRes _ _
theorem TwinM.emitl (p v) : TwinM D f1 f2 (MemPage.emitl p v) (MemPage.emitl p v) := by
  have : MemPage.emitl p v = Monoasm.emitRes p (le32 v) := funext fun s => emitl_run p v s
  rw [this]; exact .emitRes _ _
theorem TwinM.emitq (p v) : TwinM D f1 f2 (MemPage.emitq p v) (MemPage.emitq p v) := .bind (.emitl _ _) (.emitl _ _)
theorem TwinM.emitZeros (p n) : TwinM D f1 f2 (JitMemory.emitZeros p n) (JitMemory.emitZeros p n) := by
  induction n with
  | zero => exact .pure
  | succ n ih => exact .bind (.emitb _ _) ih

theorem TwinM.align (k p) : TwinM D f1 f2 (alignOp k p) (alignOp k p) := by
  intro s1 s2 h
  refine .inl ⟨_, _, alignOp_run k p s1, alignOp_run k p s2, ?_⟩
  have := h.update s1.mem (fun q pg => if q = p then { pg with counter := MemPage.alignUp (s1.pages p).counter (2 ^ k - 1) } else pg)
      (by intro q pg f X Y; simp only [withLists]; split <;> rfl)
  have e : s2 = { s2 with mem := s1.mem } := by rw [h.mem]
  simp only [skipped, ← h.counter]
  rw [e]
  exact this

theorem Twin.ne1 (h : Twin D f1 f2 s1 s2) {x y} (hx : D x) (hy : D y) (e : y ≠ x) : f1 x ≠ f1 y := fun c => e (h.inj1 x y hx hy c).symm
theorem Twin.ne2 (h : Twin D f1 f2 s1 s2) {x y} (hx : D x) (hy : D y) (e : y ≠ x) : f2 x ≠ f2 y := fun c => e (h.inj2 x y hx hy c).symm

theorem locOf_modify' {s : JitMemory} {l l' : Nat} {f : LabelInfo → LabelInfo} (hl : l' < s.labels.length) :
    JitMemory.locOf ({ s with labels := s.labels.modify l f } : JitMemory) l' =
      if l = l' then (f s.labels[l']).loc else s.locOf l' := by
  simp only [JitMemory.locOf, List.getElem?_modify, List.getElem?_eq_getElem hl]
  by_cases e : l = l' <;> simp [e]

theorem targets_modify_eq {s : JitMemory} {l l' : Nat} {f : LabelInfo → LabelInfo} (hl : l' < s.labels.length) :
    targets ({ s with labels := s.labels.modify l f } : JitMemory) l' =
      if l = l' then (f s.labels[l']).target else targets s l' := by
  simp only [targets, List.getElem?_modify, List.getElem?_eq_getElem hl]
  by_cases e : l = l' <;> simp [e]

theorem Twin.bindLabel (h : Twin D f1 f2 s1 s2) {x} (hx : D x) (v : Option (Page × Nat)) :
    Twin D f1 f2 { s1 with labels := s1.labels.modify (f1 x) fun i => { i with loc := v } }
      { s2 with labels := s2.labels.modify (f2 x) fun i => { i with loc := v } } where
  len := by simp [h.len]
  lt1 y hy := by simp only [List.length_modify]; exact h.lt1 y hy
  lt2 y hy := by simp only [List.length_modify]; exact h.lt2 y hy
  inj1 := h.inj1
  inj2 := h.inj2
  surj1 l hl := h.surj1 l (by simpa using hl)
  surj2 l hl := h.surj2 l (by simpa using hl)
  pages := h.pages
  mem := h.mem
  loc y hy := by
    rw [locOf_modify' (h.lt1 y hy), locOf_modify' (h.lt2 y hy)]
    by_cases e : y = x
    · subst e; simp
    · rw [if_neg (h.ne1 hx hy e), if_neg (h.ne2 hx hy e)]; exact h.loc y hy
  tgt y hy := by
    rw [targets_modify_eq (h.lt1 y hy), targets_modify_eq (h.lt2 y hy)]
    have := h.tgt y hy
    by_cases e : y = x
    · subst e
      simp only [if_true]
      rw [targets, targets, List.getElem?_eq_getElem (h.lt1 y hy), List.getElem?_eq_getElem (h.lt2 y hy)] at this
      exact this
    · rw [if_neg (h.ne1 hx hy e), if_neg (h.ne2 hx hy e)]; exact this

theorem Twin.addTarget (h : Twin D f1 f2 s1 s2) {x} (hx : D x) (v : TargetType) :
    Twin D f1 f2 { s1 with labels := s1.labels.modify (f1 x) fun i => { i with target := i.target ++ [v] } }
      { s2 with labels := s2.labels.modify (f2 x) fun i => { i with target := i.target ++ [v] } } where
  len := by simp [h.len]
  lt1 y hy := by simp only [List.length_modify]; exact h.lt1 y hy
  lt2 y hy := by simp only [List.length_modify]; exact h.lt2 y hy
  inj1 := h.inj1
  inj2 := h.inj2
  surj1 l hl := h.surj1 l (by simpa using hl)
  surj2 l hl := h.surj2 l (by simpa using hl)
  pages := h.pages
  mem := h.mem
  loc y hy := by
    rw [locOf_modify' (h.lt1 y hy), locOf_modify' (h.lt2 y hy)]
    have := h.loc y hy
    by_cases e : y = x
    · subst e; simp only [if_true]
      rw [JitMemory.locOf, JitMemory.locOf, List.getElem?_eq_getElem (h.lt1 y hy), List.getElem?_eq_getElem (h.lt2 y hy)] at this
      exact this
    · rw [if_neg (h.ne1 hx hy e), if_neg (h.ne2 hx hy e)]; exact this
  tgt y hy t := by
    rw [targets_modify_eq (h.lt1 y hy), targets_modify_eq (h.lt2 y hy)]
    have := h.tgt y hy t
    by_cases e : y = x
    · subst e
      simp only [if_true, List.mem_append]
      rw [targets, targets, List.getElem?_eq_getElem (h.lt1 y hy), List.getElem?_eq_getElem (h.lt2 y hy)] at this
      simp only at this
      rw [this]
    · rw [if_neg (h.ne1 hx hy e), if_neg (h.ne2 hx hy e)]; exact this

theorem TwinM.bind_label {x} (hx : D x) (p) : TwinM D f1 f2 (bind_label_with_page p (f1 x)) (bind_label_with_page p (f2 x)) := by
  intro s1 s2 h
  by_cases hp : p < 3
  · refine .inl ⟨_, _, ?_, ?_, h.bindLabel hx (some (p, (s1.pages p).counter))⟩
    · simp only [bind_label_with_page]
      rw [ok_bind (s1 := s1) (a := ()) (by simp [checkPage, hp])]
      show modifyLabel _ _ s1 = _
      rw [modifyLabel_in (h.lt1 x hx)]
    · simp only [bind_label_with_page]
      rw [ok_bind (s1 := s2) (a := ()) (by simp [checkPage, hp])]
      show modifyLabel _ _ s2 = _
      rw [modifyLabel_in (h.lt2 x hx), h.counter]
  · have : ∀ s : JitMemory, ∃ e t, checkPage p s = .panic e t := fun s => by simp [checkPage, hp]
    obtain ⟨e, t, k⟩ := this s1
    obtain ⟨e', t', k'⟩ := this s2
    exact .inr ⟨⟨e, t, panic_bind k⟩, e', t', panic_bind k'⟩

theorem TwinM.save_abs {x} (hx : D x) (p) : TwinM D f1 f2 (save_absolute_reloc p (f1 x)) (save_absolute_reloc p (f2 x)) := by
  intro s1 s2 h
  refine .inl ⟨_, _, ?_, ?_, h.addTarget hx (.abs p (s1.pages p).counter)⟩
  · show modifyLabel _ _ s1 = _
    rw [modifyLabel_in (h.lt1 x hx)]
  · show modifyLabel _ _ s2 = _
    rw [modifyLabel_in (h.lt2 x hx), h.counter]

theorem TwinM.resolveOne (p) {d : DataType × Nat} (hd : ∀ x ∈ d.2 :: d.1.labels, D x) :
    TwinM D f1 f2 (resolveOne p (renObj f1 d).1 (renObj f1 d).2) (resolveOne p (renObj f2 d).1 (renObj f2 d).2) := by
  obtain ⟨d, x⟩ := d
  have hx := hd x List.mem_cons_self
  cases d with
  | u64 v => exact .bind (.align 4 p) (.bind (.bind_label hx p) (.emitq p v))
  | u32 v => exact .bind (.align 2 p) (.bind (.bind_label hx p) (.emitl p v))
  | bytes n => exact .bind (.align 4 p) (.bind (.bind_label hx p) (.emitZeros p n))
  | absAddress y =>
    exact .bind (.align 3 p) (.bind (.bind_label hx p) (.bind (.save_abs (hd y (by simp [DataType.labels])) p) (.emitq p 0)))
  | align8 => exact .bind (.align 3 p) (.bind_label hx p)

theorem TwinM.resolveList (p) {X : List (DataType × Nat)} (hX : Named D X) :
    TwinM D f1 f2 (resolveList p (X.map (renObj f1))) (resolveList p (X.map (renObj f2))) := by
  induction X with
  | nil => exact .pure
  | cons d X ih =>
    exact .bind (.resolveOne p (hX d List.mem_cons_self)) (ih fun d' h' => hX d' (List.mem_cons_of_mem _ h'))

theorem Named.nil : Named D [] := fun _ h => absurd h (by simp)

theorem TwinM.constantsOf (p) : TwinM D f1 f2 (resolveConstantsOf p) (resolveConstantsOf p) := by
  intro s1 s2 h
  obtain ⟨pg, X, Y, hX, hY, e1, e2⟩ := h.pages p
  have h' : Twin D f1 f2 (s1.updPage p fun pg => { pg with constants := [] }) (s2.updPage p fun pg => { pg with constants := [] }) :=
    ⟨h.len, h.lt1, h.lt2, h.inj1, h.inj2, h.surj1, h.surj2, by
      intro q
      by_cases e : q = p
      · subst e
        exact ⟨pg, [], Y, .nil, hY, by simp [JitMemory.updPage, e1, withLists], by simp [JitMemory.updPage, e2, withLists]⟩
      · obtain ⟨pg, X, Y, hX, hY, e1, e2⟩ := h.pages q
        exact ⟨pg, X, Y, hX, hY, by simp [JitMemory.updPage, e1, e], by simp [JitMemory.updPage, e2, e]⟩, h.mem, h.loc, h.tgt⟩
  have c1 : (s1.pages p).constants = X.map (renObj f1) := by rw [e1]; rfl
  have c2 : (s2.pages p).constants = X.map (renObj f2) := by rw [e2]; rfl
  have k := TwinM.resolveList (f1 := f1) (f2 := f2) p hX _ _ h'
  rw [← c1, ← c2] at k
  exact k

theorem TwinM.dataOf (p) : TwinM D f1 f2 (resolveDataOf p) (resolveDataOf p) := by
  intro s1 s2 h
  obtain ⟨pg, X, Y, hX, hY, e1, e2⟩ := h.pages p
  have h' : Twin D f1 f2 (s1.updPage p fun pg => { pg with data := [] }) (s2.updPage p fun pg => { pg with data := [] }) :=
    ⟨h.len, h.lt1, h.lt2, h.inj1, h.inj2, h.surj1, h.surj2, by
      intro q
      by_cases e : q = p
      · subst e
        exact ⟨pg, X, [], hX, .nil, by simp [JitMemory.updPage, e1, withLists], by simp [JitMemory.updPage, e2, withLists]⟩
      · obtain ⟨pg, X, Y, hX, hY, e1, e2⟩ := h.pages q
        exact ⟨pg, X, Y, hX, hY, by simp [JitMemory.updPage, e1, e], by simp [JitMemory.updPage, e2, e]⟩, h.mem, h.loc, h.tgt⟩
  have c1 : (s1.pages p).data = Y.map (renObj f1) := by rw [e1]; rfl
  have c2 : (s2.pages p).data = Y.map (renObj f2) := by rw [e2]; rfl
  have k := TwinM.resolveList (f1 := f1) (f2 := f2) DATA_PAGE hY _ _ h'
  rw [← c1, ← c2] at k
  exact k

theorem TwinM.forPages {g : MemPage → MemPage} (hg : ∀ pg f X Y, g (withLists pg f X Y) = withLists (g pg) f X Y) :
    TwinM D f1 f2 (forPages g) (forPages g) := by
  intro s1 s2 h
  refine .inl ⟨_, _, rfl, rfl, ?_⟩
  have := h.update s1.mem (fun p pg => if p < 3 then g pg else pg) (by intro q pg f X Y; split; exact hg pg f X Y; rfl)
  have e : s2 = { s2 with mem := s1.mem } := by rw [h.mem]
  rw [e]
  exact this

/-! ### `fill_relocs` -/

theorem fillTarget_of {src t s} (hl : Live t) (hf : FitsRel (contentsOf s) src t) :
    fillTarget src t s = .ok () { s with mem := putBytes s.mem (contentsOf s t.page + t.pos) (slotBytes (contentsOf s) src t) } := by
  cases t with
  | rel p off pos =>
    simp only [fillTarget]
    rw [ok_bind (s1 := s) (by rfl)]
    simp only [i32TryFromInt]
    have hf' : -2147483648 ≤ (src : Int) - ((s.pages p).contents + pos + off.toNat : Nat)
        ∧ (src : Int) - ((s.pages p).contents + pos + off.toNat : Nat) ≤ 2147483647 := hf
    rw [if_pos hf']
    simp only [write32_run, writes_run]
    rw [if_pos (.inl (show pos + 4 ≤ PAGE_SIZE from hl))]
    simp only [slotBytes, littleEndian_32]; rfl
  | abs p pos =>
    simp only [fillTarget, write64_run, writes_run]
    rw [if_pos (.inl (show pos + 8 ≤ PAGE_SIZE from hl))]
    simp only [slotBytes, littleEndian_64]; rfl

theorem fillTargets_of {src ts s} (h : ∀ t ∈ ts, Live t ∧ FitsRel (contentsOf s) src t) :
    ∃ s', fillTargets src ts s = .ok () s' ∧ contentsOf s' = contentsOf s := by
  induction ts generalizing s with
  | nil => exact ⟨s, rfl, rfl⟩
  | cons t ts ih =>
    have h1 := h t List.mem_cons_self
    obtain ⟨s', k1, k2⟩ := ih (s := { s with mem := putBytes s.mem (contentsOf s t.page + t.pos) (slotBytes (contentsOf s) src t) })
      (fun t' h' => h t' (List.mem_cons_of_mem _ h'))
    refine ⟨s', ?_, k2⟩
    simp only [fillTargets]
    rw [ok_bind (fillTarget_of h1.1 h1.2)]
    exact k1

theorem fillLabels_of {is s} (h : ∀ j ∈ is.flatMap (jobsOf (contentsOf s)), Live j.2 ∧ FitsRel (contentsOf s) j.1 j.2) :
    ∃ rs s', fillLabels is s = .ok rs s' := by
  induction is generalizing s with
  | nil => exact ⟨[], s, rfl⟩
  | cons i is ih =>
    have h1 : ∃ r s1, fillLabel i s = .ok r s1 ∧ contentsOf s1 = contentsOf s := by
      simp only [fillLabel]
      cases e : i.loc with
      | none => exact ⟨i, s, rfl, rfl⟩
      | some pc =>
        obtain ⟨s1, k1, k2⟩ := fillTargets_of (src := (s.pages pc.1).contents + pc.2) (ts := i.target) (s := s) (by
          intro t ht
          refine h ((s.pages pc.1).contents + pc.2, t) ?_
          simp only [List.flatMap_cons, List.mem_append, jobsOf, e]
          exact .inl (List.mem_map.2 ⟨t, ht, rfl⟩))
        refine ⟨{ loc := some pc, target := [] }, s1, ?_, k2⟩
        simp only
        rw [ok_bind (s1 := s) (by rfl), ok_bind k1]
        rfl
    obtain ⟨r, s1, k1, k2⟩ := h1
    obtain ⟨rs, s', k3⟩ := ih (s := s1) (by
      rw [k2]; intro j hj
      exact h j (by simp only [List.flatMap_cons, List.mem_append]; exact .inr hj))
    refine ⟨r :: rs, s', ?_⟩
    simp only [fillLabels]
    rw [ok_bind k1, ok_bind k3]
    rfl

theorem fill_relocs_of {s} (h : ∀ j ∈ jobs s, Live j.2 ∧ FitsRel (contentsOf s) j.1 j.2) :
    ∃ s', fill_relocs s = .ok () s' := by
  obtain ⟨rs, s', k⟩ := fillLabels_of (is := s.labels) (s := { s with labels := [] }) h
  refine ⟨{ s' with labels := rs }, ?_⟩
  simp only [fill_relocs]
  rw [ok_bind (s1 := s) (by rfl), ok_bind (s1 := { s with labels := [] }) (a := ()) (by rfl), ok_bind k]
  rfl

theorem Twin.jobs (h : Twin D f1 f2 s1 s2) (j) : j ∈ jobs s1 ↔ j ∈ jobs s2 := by
  obtain ⟨src, t⟩ := j
  rw [mem_jobs, mem_jobs]
  have lt : ∀ {s : JitMemory} {l : Nat} {v}, s.locOf l = some v → l < s.labels.length := by
    intro s l v e
    rcases Nat.lt_or_ge l s.labels.length with h | h
    · exact h
    · simp [JitMemory.locOf, List.getElem?_eq_none h] at e
  constructor
  · rintro ⟨l, p, c, hl, ht, rfl⟩
    obtain ⟨x, hx, rfl⟩ := h.surj1 l (lt hl)
    exact ⟨f2 x, p, c, (h.loc x hx).symm.trans hl, (h.tgt x hx t).1 ht, by rw [h.contents]⟩
  · rintro ⟨l, p, c, hl, ht, rfl⟩
    obtain ⟨x, hx, rfl⟩ := h.surj2 l (lt hl)
    exact ⟨f1 x, p, c, (h.loc x hx).trans hl, (h.tgt x hx t).2 ht, by rw [h.contents]⟩

theorem fillMem_at {base : Nat} {s : JitMemory} (hi : Inv base s) (hs : Slots s) (hl : ∀ j ∈ Monoasm.jobs s, Live j.2) (j)
    (hj : j ∈ Monoasm.jobs s) (i : Nat) (hlt : i < (slotBytes (contentsOf s) j.1 j.2).length) :
    fillMem (contentsOf s) (Monoasm.jobs s) s.mem (contentsOf s j.2.page + j.2.pos + i) = (slotBytes (contentsOf s) j.1 j.2)[i] := by
  have := fillMem_in hi (Monoasm.jobs s) s.mem hl (jobs_apart hs) j hj
  rw [bytes_eq_bytesAt, ← slotBytes_length (contentsOf s) j.1 j.2, bytesAt_eq_iff] at this
  exact this i hlt

theorem Twin.fill (h : Twin D f1 f2 s1 s2) {base} (i1 : Inv base s1) (i2 : Inv base s2) (l1 : Slots s1) (l2 : Slots s2) {t1}
    (hr : fill_relocs s1 = .ok () t1) : ∃ t2, fill_relocs s2 = .ok () t2 ∧ Twin D f1 f2 t1 t2 := by
  obtain ⟨k1, rfl⟩ := fill_relocs_run hr
  have hc : contentsOf s1 = contentsOf s2 := funext h.contents
  have k2 : ∀ j ∈ Monoasm.jobs s2, Live j.2 ∧ FitsRel (contentsOf s2) j.1 j.2 := fun j hj => by
    rw [← hc]; exact k1 j ((h.jobs j).2 hj)
  obtain ⟨t2, hr2⟩ := fill_relocs_of k2
  refine ⟨t2, hr2, ?_⟩
  obtain ⟨_, rfl⟩ := fill_relocs_run hr2
  have hm : fillMem (contentsOf s1) (Monoasm.jobs s1) s1.mem = fillMem (contentsOf s2) (Monoasm.jobs s2) s2.mem := by
    funext a
    by_cases hj : ∃ j ∈ Monoasm.jobs s1, ¬ (a < contentsOf s1 j.2.page + j.2.pos ∨ contentsOf s1 j.2.page + j.2.pos + j.2.size ≤ a)
    · obtain ⟨j, hj, hn⟩ := hj
      have hlt : a - (contentsOf s1 j.2.page + j.2.pos) < (slotBytes (contentsOf s1) j.1 j.2).length := by
        rw [slotBytes_length]; omega
      have e : a = contentsOf s1 j.2.page + j.2.pos + (a - (contentsOf s1 j.2.page + j.2.pos)) := by omega
      have a1 := fillMem_at i1 l1 (fun j hj => (k1 j hj).1) j hj _ hlt
      have a2 := fillMem_at i2 l2 (fun j hj => (k2 j hj).1) j ((h.jobs j).1 hj) _ (by rw [← hc]; exact hlt)
      rw [← e] at a1
      simp only [← hc] at a2 ⊢
      rw [← e] at a2
      rw [a1, a2]
    · rw [fillMem_out, fillMem_out, h.mem]
      · intro j hj2
        rw [← hc]
        exact Classical.not_not.1 fun hn => hj ⟨j, (h.jobs j).2 hj2, hn⟩
      · intro j hj1
        exact Classical.not_not.1 fun hn => hj ⟨j, hj1, hn⟩
  have hloc : ∀ (s : JitMemory) m l, JitMemory.locOf ({ s with labels := s.labels.map LabelInfo.filled, mem := m } : JitMemory) l = s.locOf l :=
    fun s m l => locOf_filled s.labels l
  have htgt : ∀ (s : JitMemory) m l, targets ({ s with labels := s.labels.map LabelInfo.filled, mem := m } : JitMemory) l
      = if s.locOf l = none then targets s l else [] := by
    intro s m l
    simp only [targets, JitMemory.locOf, List.getElem?_map]
    rcases Option.eq_none_or_eq_some (s.labels[l]?) with e | ⟨i, e⟩
    · simp [e]
    · simp only [e, Option.map_some, LabelInfo.filled, Option.bind_some]
      cases e' : i.loc <;> simp
  exact ⟨by simp [h.len], fun x hx => by simp only [List.length_map]; exact h.lt1 x hx,
    fun x hx => by simp only [List.length_map]; exact h.lt2 x hx, h.inj1, h.inj2,
    fun l hl => h.surj1 l (by simpa using hl), fun l hl => h.surj2 l (by simpa using hl), h.pages, hm,
    fun x hx => by rw [hloc, hloc]; exact h.loc x hx,
    fun x hx t => by
      rw [htgt, htgt, h.loc x hx]
      split
      · exact h.tgt x hx t
      · exact Iff.rfl⟩

/-! ### `finalize` -/

/-- The first part of `finalize`. -/
def place : M Unit := do
  forPages openBlock
  resolve_constants
  resolve_data
  forPages closeBlock

theorem TwinM.place : TwinM D f1 f2 place place :=
  .bind (.forPages fun _ _ _ _ => rfl)
    (.bind (.bind (.constantsOf 0) (.constantsOf 1)) (.bind (.bind (.dataOf 0) (.dataOf 1)) (.forPages fun _ _ _ _ => rfl)))

theorem finalize_place : finalize = (do place; fill_relocs; forPages topBlock) := by
  simp only [finalize, place, bind_assoc]

theorem place_ok {base : Nat} {s s' : JitMemory} (hv : HInv base s) (h : Monoasm.place s = .ok () s') : Inv base s' ∧ Slots s' := by
  simp only [Monoasm.place] at h
  obtain ⟨_, sa, ha, h⟩ := bind_ok h
  obtain ⟨_, sr, hr, h⟩ := bind_ok h
  obtain ⟨_, sb, hb, hc⟩ := bind_ok h
  have ma : Sim s sa := sim_forPages (f := openBlock) (fun _ => ⟨rfl, rfl, rfl, rfl⟩) ha
  have mc : Sim sb s' := sim_forPages (f := closeBlock) (fun _ => ⟨rfl, rfl, rfl, rfl⟩) hc
  obtain ⟨r, hlists⟩ := resolve_ok (ma.inv hv.inv) (ma.slots hv.slots) (by rw [ma.objects]; exact hv.nodup) hr hb
  exact ⟨mc.inv r.inv, mc.slots (r.grow.slots (ma.slots hv.slots))⟩

theorem Twin.finalize (h : Twin D f1 f2 s1 s2) {base} (h1 : HInv base s1) (h2 : HInv base s2) {t1}
    (hr : JitMemory.finalize s1 = .ok () t1) : ∃ t2, JitMemory.finalize s2 = .ok () t2 ∧ Twin D f1 f2 t1 t2 := by
  rw [finalize_place] at hr ⊢
  obtain ⟨_, a1, k1, hr⟩ := bind_ok hr
  obtain ⟨_, b1, k2, hr⟩ := bind_ok hr
  rcases TwinM.place s1 s2 h with ⟨u1, a2, e1, e2, ha⟩ | ⟨⟨e, t, e1⟩, _⟩
  · rw [e1] at k1; cases k1
    obtain ⟨j1, l1⟩ := place_ok h1 e1
    obtain ⟨j2, l2⟩ := place_ok h2 e2
    obtain ⟨b2, k4, hb⟩ := ha.fill j1 j2 l1 l2 k2
    rcases TwinM.forPages (g := topBlock) (fun _ _ _ _ => rfl) b1 b2 hb with ⟨u1, t2, e3, e4, ht⟩ | ⟨⟨e, t, e3⟩, _⟩
    · rw [e3] at hr; cases hr
      exact ⟨t2, by rw [ok_bind e2, ok_bind k4]; exact e4, ht⟩
    · rw [e3] at hr; cases hr
  · rw [e1] at k1; cases k1

end

end Monoasm
