import Verif.Proofs.Grow
/-
  What `finalize` does with the pending constants and data objects.
-/

set_option linter.unusedSimpArgs false

namespace Monoasm
open JitMemory Spec

/-- The object `d` with label `l` is at position `pos` of page `p`. -/
structure Placed (s : JitMemory) (p : Page) (d : DataType) (l : DestLabel) (pos : Nat) : Prop where
  loc : s.locOf l = some (p, pos)
  aligned : d.align ∣ pos
  fits : pos + d.size ≤ cursor s p
  bytes : (∀ x, d ≠ .absAddress x) → ∀ i, (h : i < d.value.length) →
    byteAt s p (pos + i) = d.value[i] ∧ Settled s p (pos + i)
  slot : ∀ x, d = .absAddress x → TargetType.abs p pos ∈ targets s x

theorem Placed.grow {s s' p d l pos} (h : Placed s p d l pos) (g : Grow s s') (hl : s'.locOf l = s.locOf l) :
    Placed s' p d l pos where
  loc := hl.trans h.loc
  aligned := h.aligned
  fits := Nat.le_trans h.fits (g.cursor p)
  bytes hx i hi := by
    have := h.bytes hx i hi
    have k := settled_grow this.2 g
    exact ⟨k.2.trans this.1, k.1⟩
  slot x hx := by
    obtain ⟨ts, e, _⟩ := g.targets x
    rw [e]; exact List.mem_append_left _ (h.slot x hx)

section
variable {base : Nat}

/-- After aligning the cursor of page `p` and binding `l` there. -/
structure Bound (s : JitMemory) (k : Nat) (p : Page) (l : DestLabel) (s2 : JitMemory) : Prop where
  grow : Grow s s2
  inv : Inv base s2
  up : cursor s p ≤ cursor s2 p
  dvd : 2 ^ k ∣ cursor s2 p
  loc : s2.locOf l = some (p, cursor s2 p)
  others : ∀ l', l' ≠ l → s2.locOf l' = s.locOf l'

theorem bound_ok {s s1 s2 : JitMemory} (hi : Inv base s) {k p l} (hk : k ≤ 28) (hp : p < 3)
    (h1 : alignOp k p s = .ok () s1) (h2 : bind_label_with_page p l s1 = .ok () s2) :
    Bound (base := base) s k p l s2 := by
  have g1 := (Grows.alignOp (base := base) (p := p) k hk) s hi
  rw [h1] at g1
  have g2 := (Grows.bind_label_with_page (base := base) p l) s1 g1.1
  rw [h2] at g2
  rw [alignOp_run] at h1
  cases h1
  have hk2 := (Keeps.bind_label_with_page (B := fun l' => l' = l) p l rfl) (skipped s p (MemPage.alignUp (s.pages p).counter (2 ^ k - 1)))
  rw [h2] at hk2
  have e : bind_label_with_page p l (skipped s p (MemPage.alignUp (s.pages p).counter (2 ^ k - 1)))
      = modifyLabel l (fun i => { i with loc := some (p, MemPage.alignUp (s.pages p).counter (2 ^ k - 1)) })
        (skipped s p (MemPage.alignUp (s.pages p).counter (2 ^ k - 1))) := by
    simp only [bind_label_with_page]
    rw [ok_bind (a := ()) (s1 := skipped s p (MemPage.alignUp (s.pages p).counter (2 ^ k - 1)))
      (by simp [checkPage, hp]), ok_bind (a := MemPage.alignUp (s.pages p).counter (2 ^ k - 1))
      (s1 := skipped s p (MemPage.alignUp (s.pages p).counter (2 ^ k - 1))) (by simp [MemPage.counterOf, skipped])]
  rw [e] at h2
  simp only [modifyLabel] at h2
  split at h2
  case isFalse => cases h2
  rename_i hl
  cases h2
  have hc : (s.pages p).counter ≤ 2 ^ 63 := by
    have := hi.counter p
    rw [PAGE_SIZE_eq] at this; omega
  have hcur : cursor (skipped s p (MemPage.alignUp (s.pages p).counter (2 ^ k - 1))) p
      = MemPage.alignUp (s.pages p).counter (2 ^ k - 1) := by simp [cursor, skipped]
  refine ⟨g1.2.trans g2.2, g2.1, Nat.le_trans (g1.2.cursor p) (g2.2.cursor p), ?_, ?_, ?_⟩
  · show 2 ^ k ∣ cursor (skipped s p (MemPage.alignUp (s.pages p).counter (2 ^ k - 1))) p
    rw [hcur]
    exact (alignUp_spec _ k (by omega) hc).2.1
  · show _ = some (p, cursor (skipped s p (MemPage.alignUp (s.pages p).counter (2 ^ k - 1))) p)
    rw [hcur, locOf_modify]
    have hl' : l < s.labels.length := hl
    simp [skipped, hl']
  · intro l' hl'
    exact hk2.loc l' hl'

theorem settled_new {s : JitMemory} (hs : Slots s) {p : Page} {bs : List Byte} {i : Nat} (hi : i < bs.length) :
    Settled (emitted s p bs) p (cursor s p + i) := by
  refine ⟨by simp [cursor, emitted]; omega, ?_⟩
  intro l t ht hl hc
  have := hs.inside l t ht hl
  obtain ⟨e, h1, h2⟩ := hc
  rw [e] at this
  omega

theorem byteAt_new {s : JitMemory} {p : Page} {bs : List Byte} {i : Nat} (hi : i < bs.length) :
    byteAt (emitted s p bs) p (cursor s p + i) = bs[i] := by
  simp only [byteAt, emitted, if_true, cursor]
  rw [← Nat.add_assoc, putBytes_in _ hi]

/-- Emission of an object that is not an address. -/
theorem placed_emit {s s2 : JitMemory} {k p d l} (hb : Bound (base := base) s k p l s2) (hs : Slots s)
    (hd : ∀ x, d ≠ .absAddress x) (ha : d.align = 2 ^ k) (hlen : d.value.length = d.size) :
    Placed (emitted s2 p d.value) p d l (cursor s2 p) where
  loc := hb.loc
  aligned := by rw [ha]; exact hb.dvd
  fits := by simp [cursor, emitted, hlen]
  bytes _ i hi := ⟨byteAt_new hi, settled_new (hb.grow.slots hs) hi⟩
  slot x hx := absurd hx (hd x)

theorem emitZeros_ok {p n s s'} (h : emitZeros p n s = .ok () s') (hc : (s.pages p).counter ≤ PAGE_SIZE) :
    (s.pages p).counter + n ≤ PAGE_SIZE ∧ s' = emitted s p (List.replicate n 0) := by
  induction n generalizing s with
  | zero =>
    cases h
    exact ⟨hc, by simp [emitted_nil]⟩
  | succ n ih =>
    simp only [emitZeros] at h
    obtain ⟨_, s1, h1, h2⟩ := bind_ok h
    rw [emitb_run] at h1
    obtain ⟨h3, rfl⟩ := emitRes_ok h1
    obtain ⟨h4, rfl⟩ := ih h2 (by simpa [emitted] using h3)
    simp only [emitted, if_true, List.length_singleton] at h4
    refine ⟨by omega, ?_⟩
    rw [← emitted_append]
    rfl

/-- Placing one object. -/
structure PlacedOne (base : Nat) (s s' : JitMemory) (p : Page) (d : DataType) (l : DestLabel) : Prop where
  grow : Grow s s'
  inv : Inv base s'
  placed : ∃ pos, Placed s' p d l pos ∧ cursor s p ≤ pos
  others : ∀ l', l' ≠ l → s'.locOf l' = s.locOf l'

theorem emit_done {s s2 : JitMemory} {k p d l} (hp : p < 3) (hb : Bound (base := base) s k p l s2) (hs : Slots s)
    (hd : ∀ x, d ≠ .absAddress x) (ha : d.align = 2 ^ k) (hlen : d.value.length = d.size)
    (hfit : (s2.pages p).counter + d.size ≤ PAGE_SIZE) :
    PlacedOne base s (emitted s2 p d.value) p d l := by
  refine ⟨hb.grow.trans (grow_emitted hb.inv p _ (by rw [hlen]; exact hfit)), ?_,
    ⟨_, placed_emit hb hs hd ha hlen, hb.up⟩, fun l' hl' => hb.others l' hl'⟩
  have := safe_emitRes (base := base) (ro := False) (ps := fun _ => True) (p := p) d.value hp trivial s2 hb.inv trivial
  rw [emitRes, if_pos (by rw [hlen]; exact hfit)] at this
  exact this.1.inv

theorem resolveOne_ok {s s' : JitMemory} (hi : Inv base s) (hs : Slots s) {p d l} (hp : p < 3)
    (h : resolveOne p d l s = .ok () s') : PlacedOne base s s' p d l := by
  cases d with
  | u64 v =>
    simp only [resolveOne, align16_eq] at h
    obtain ⟨_, s1, h1, h⟩ := bind_ok h
    obtain ⟨_, s2, h2, h⟩ := bind_ok h
    have hb := bound_ok hi (by omega) hp h1 h2
    obtain ⟨hf, rfl⟩ := emitq_ok h
    rw [show le64 v = (DataType.u64 v).value from (littleEndian_64 v).symm]
    exact emit_done (d := .u64 v) hp hb hs (by simp) rfl rfl hf
  | u32 v =>
    simp only [resolveOne, align4_eq] at h
    obtain ⟨_, s1, h1, h⟩ := bind_ok h
    obtain ⟨_, s2, h2, h⟩ := bind_ok h
    have hb := bound_ok hi (by omega) hp h1 h2
    rw [emitl_run] at h
    obtain ⟨hf, rfl⟩ := emitRes_ok h
    rw [show le32 v = (DataType.u32 v).value from (littleEndian_32 v).symm]
    exact emit_done (d := .u32 v) hp hb hs (by simp) rfl rfl hf
  | bytes n =>
    simp only [resolveOne, align16_eq] at h
    obtain ⟨_, s1, h1, h⟩ := bind_ok h
    obtain ⟨_, s2, h2, h⟩ := bind_ok h
    have hb := bound_ok hi (by omega) hp h1 h2
    obtain ⟨hf, rfl⟩ := emitZeros_ok h (hb.inv.counter p)
    exact emit_done (d := .bytes n) hp hb hs (by simp) rfl (by simp [DataType.value, DataType.size]) hf
  | align8 =>
    simp only [resolveOne, align8_eq] at h
    obtain ⟨_, s1, h1, h2⟩ := bind_ok h
    have hb := bound_ok hi (by omega) hp h1 h2
    rw [← emitted_nil s' p]
    exact emit_done (d := .align8) hp hb hs (by simp) rfl rfl (hb.inv.counter p)
  | absAddress x =>
    simp only [resolveOne, align8_eq] at h
    obtain ⟨_, s1, h1, h⟩ := bind_ok h
    obtain ⟨_, s2, h2, h⟩ := bind_ok h
    obtain ⟨_, s3, h3, h⟩ := bind_ok h
    have hb := bound_ok hi (by omega) hp h1 h2
    rw [save_absolute_reloc_run] at h3
    split at h3
    case isFalse => cases h3
    rename_i hx
    cases h3
    obtain ⟨hf, rfl⟩ := emitq_ok h
    have hi3 : Inv base { s2 with labels := s2.labels.modify x fun i =>
        { i with target := i.target ++ [.abs p (s2.pages p).counter] } } := by
      refine hb.inv.modifyLabel (fun i p c h => .inl h) fun i t' ht' => ?_
      simp only [List.mem_append, List.mem_singleton] at ht'
      rcases ht' with h' | rfl
      · exact .inl h'
      · exact .inr ⟨hp, hb.inv.counter _⟩
    have g : Grow s2 (emitted { s2 with labels := s2.labels.modify x fun i =>
        { i with target := i.target ++ [.abs p (s2.pages p).counter] } } p (le64 0)) :=
      slot_grow (p := p) (t := .abs p (s2.pages p).counter) hb.inv hp rfl rfl (.inr (Nat.mod_eq_zero_of_dvd hb.dvd)) hx rfl (.inl ⟨hf, rfl⟩) rfl
    have hloc : ∀ l', (emitted { s2 with labels := s2.labels.modify x fun i =>
        { i with target := i.target ++ [.abs p (s2.pages p).counter] } } p (le64 0)).locOf l' = s2.locOf l' := by
      intro l'
      refine (locOf_modify (s := s2)).trans ?_
      simp only [JitMemory.locOf]
      cases s2.labels[l']? with
      | none => rfl
      | some i => simp only [Option.bind_some]; split <;> rfl
    refine ⟨hb.grow.trans g, ?_, ⟨cursor s2 p, ⟨?_, hb.dvd, ?_, by simp, ?_⟩, hb.up⟩, ?_⟩
    · have := safe_emitRes (base := base) (ro := False) (ps := fun _ => True) (p := p) (le64 0) hp trivial _ hi3 trivial
      rw [emitRes, if_pos (c := _ + (le64 0).length ≤ _) hf] at this
      exact this.1.inv
    · rw [hloc]; exact hb.loc
    · simp [cursor, emitted, DataType.size]
    · intro y hy
      cases hy
      have := targets_modify s2 x (fun i => { i with target := i.target ++ [.abs p (s2.pages p).counter] }) x hx
      refine (show _ ∈ targets { s2 with labels := s2.labels.modify x fun i =>
        { i with target := i.target ++ [.abs p (s2.pages p).counter] } } x from ?_)
      rw [this]
      simp [cursor]
    · intro l' hl'
      rw [hloc]; exact hb.others l' hl'

/-- Placing a list of objects. -/
structure Resolved (base : Nat) (s s' : JitMemory) (xs : List (Page × DataType × DestLabel)) : Prop where
  grow : Grow s s'
  inv : Inv base s'
  placed : ∀ p d l, (p, d, l) ∈ xs → ∃ pos, Placed s' p d l pos ∧ cursor s p ≤ pos
  others : ∀ l, (∀ p d, (p, d, l) ∉ xs) → s'.locOf l = s.locOf l
  apart : ∀ p d l pos p' d' l' pos', (p, d, l) ∈ xs → (p', d', l') ∈ xs → l ≠ l' →
    Placed s' p d l pos → Placed s' p' d' l' pos' →
    p ≠ p' ∨ pos + d.size ≤ pos' ∨ pos' + d'.size ≤ pos

theorem Placed.unique {s p d l pos p' d' pos'} (h : Placed s p d l pos) (h' : Placed s p' d' l pos') :
    p = p' ∧ pos = pos' := by
  have := h.loc.symm.trans h'.loc
  simpa using this

theorem Resolved.trans {s s1 s2 xs ys} (h1 : Resolved base s s1 xs) (h2 : Resolved base s1 s2 ys)
    (hd : ∀ p d l p' d', (p, d, l) ∈ xs → (p', d', l) ∉ ys) : Resolved base s s2 (xs ++ ys) := by
  have key : ∀ p d l, (p, d, l) ∈ xs → ∃ pos, Placed s1 p d l pos ∧ Placed s2 p d l pos ∧ cursor s p ≤ pos := by
    intro p d l h
    obtain ⟨pos, hp, hc⟩ := h1.placed p d l h
    exact ⟨pos, hp, hp.grow h2.grow (h2.others l fun p' d' => hd p d l p' d' h), hc⟩
  refine ⟨h1.grow.trans h2.grow, h2.inv, ?_, ?_, ?_⟩
  · intro p d l h
    rcases List.mem_append.1 h with h | h
    · obtain ⟨pos, _, hp, hc⟩ := key p d l h
      exact ⟨pos, hp, hc⟩
    · obtain ⟨pos, hp, hc⟩ := h2.placed p d l h
      exact ⟨pos, hp, Nat.le_trans (h1.grow.cursor p) hc⟩
  · intro l h
    rw [h2.others l fun p d hm => h p d (List.mem_append_right _ hm),
      h1.others l fun p d hm => h p d (List.mem_append_left _ hm)]
  · intro p d l pos p' d' l' pos' h h' hne hp hp'
    rcases List.mem_append.1 h with h | h <;> rcases List.mem_append.1 h' with h' | h'
    · obtain ⟨q, k1, k2, _⟩ := key p d l h
      obtain ⟨q', k1', k2', _⟩ := key p' d' l' h'
      obtain ⟨_, rfl⟩ := k2.unique hp
      obtain ⟨_, rfl⟩ := k2'.unique hp'
      exact h1.apart p d l q p' d' l' q' h h' hne k1 k1'
    · obtain ⟨q, k1, k2, _⟩ := key p d l h
      obtain ⟨_, rfl⟩ := k2.unique hp
      obtain ⟨q', k', hc⟩ := h2.placed p' d' l' h'
      obtain ⟨_, rfl⟩ := k'.unique hp'
      by_cases e : p = p'
      · subst e
        exact .inr (.inl (Nat.le_trans k1.fits hc))
      · exact .inl e
    · obtain ⟨q, k1, k2, _⟩ := key p' d' l' h'
      obtain ⟨_, rfl⟩ := k2.unique hp'
      obtain ⟨q', k', hc⟩ := h2.placed p d l h
      obtain ⟨_, rfl⟩ := k'.unique hp
      by_cases e : p = p'
      · subst e
        exact .inr (.inr (Nat.le_trans k1.fits hc))
      · exact .inl e
    · exact h2.apart p d l pos p' d' l' pos' h h' hne hp hp'

theorem Resolved.one {s s' p d l} (h : PlacedOne base s s' p d l) : Resolved base s s' [(p, d, l)] := by
  refine ⟨h.grow, h.inv, ?_, ?_, ?_⟩
  · intro p' d' l' hm
    simp only [List.mem_singleton, Prod.mk.injEq] at hm
    obtain ⟨rfl, rfl, rfl⟩ := hm
    exact h.placed
  · intro l' hm
    refine h.others l' fun e => hm p d ?_
    simp [e]
  · intro p1 d1 l1 pos1 p2 d2 l2 pos2 h1 h2 hne
    simp only [List.mem_singleton, Prod.mk.injEq] at h1 h2
    exact absurd (h1.2.2.trans h2.2.2.symm) hne

/-- A step that places nothing. -/
theorem Resolved.nil {s s'} (g : Grow s s') (hi : Inv base s') (hl : ∀ l, s'.locOf l = s.locOf l) :
    Resolved base s s' [] :=
  ⟨g, hi, by simp, fun l _ => hl l, by simp⟩

theorem resolveList_ok {s s' : JitMemory} (hi : Inv base s) (hs : Slots s) {p xs} (hp : p < 3)
    (hn : (xs.map Prod.snd).Nodup) (h : resolveList p xs s = .ok () s') :
    Resolved base s s' (xs.map fun x => (p, x.1, x.2)) := by
  induction xs generalizing s with
  | nil => cases h; exact .nil (.refl _) hi fun _ => rfl
  | cons x xs ih =>
    simp only [resolveList] at h
    obtain ⟨_, s1, h1, h2⟩ := bind_ok h
    have r1 := resolveOne_ok hi hs hp h1
    simp only [List.map_cons, List.nodup_cons, List.mem_map, not_exists, not_and] at hn
    have r2 := ih r1.inv (r1.grow.slots hs) hn.2 h2
    refine (Resolved.one r1).trans r2 ?_
    intro p1 d1 l1 p2 d2 h1 h2
    simp only [List.mem_singleton, Prod.mk.injEq] at h1
    simp only [List.mem_map, Prod.mk.injEq] at h2
    obtain ⟨y, hy, _, _, e⟩ := h2
    exact hn.1 y hy (by rw [e, h1.2.2])

/-- Constants and data objects waiting for the next `finalize`, with the page they will be put on,
    in the order in which they are placed. -/
def objects (s : JitMemory) : List (Page × DataType × DestLabel) :=
  (s.pages 0).constants.map (fun x => ((0 : Page), x.1, x.2)) ++
  ((s.pages 1).constants.map (fun x => ((1 : Page), x.1, x.2)) ++
  ((s.pages 0).data.map (fun x => (DATA_PAGE, x.1, x.2)) ++
  (s.pages 1).data.map (fun x => (DATA_PAGE, x.1, x.2))))

/-- State after a page record update that keeps cursor, address and blocks. -/
theorem grow_updPage {s : JitMemory} {p : Page} {f : MemPage → MemPage}
    (hf : ∀ pg : MemPage, (f pg).contents = pg.contents ∧ (f pg).counter = pg.counter
      ∧ (f pg).code_len = pg.code_len ∧ (f pg).code_block_top = pg.code_block_top
      ∧ (f pg).code_block = pg.code_block) : Grow s (s.updPage p f) := by
  have hc : ∀ q, ((s.updPage p f).pages q).contents = (s.pages q).contents := by
    intro q; simp only [JitMemory.updPage]; split
    · exact (hf _).1
    · rfl
  refine grow_of_labels (by rfl) hc ?_ ?_ ?_ ?_ ?_
  · intro q
    simp only [cursor, JitMemory.updPage]; split
    · exact Nat.le_of_eq (hf _).2.1.symm
    · exact Nat.le_refl _
  · intro q pos _
    simp only [byteAt, hc]; rfl
  · intro q; simp only [JitMemory.updPage]; split
    · exact (hf _).2.2.1
    · rfl
  · intro q; simp only [JitMemory.updPage]; split
    · exact (hf _).2.2.2.1
    · rfl
  · intro q; simp only [JitMemory.updPage]; split
    · exact (hf _).2.2.2.2
    · rfl

/-- The pending lists. -/
def lists (s : JitMemory) (p : Page) : List (DataType × DestLabel) × List (DataType × DestLabel) :=
  ((s.pages p).constants, (s.pages p).data)

theorem resolveConstantsOf_ok {s s' : JitMemory} (hi : Inv base s) (hs : Slots s) {p : Page} (hp : p < 3)
    (hn : ((s.pages p).constants.map Prod.snd).Nodup) (h : resolveConstantsOf p s = .ok () s') :
    Resolved base s s' ((s.pages p).constants.map fun x => (p, x.1, x.2))
    ∧ ∀ q, lists s' q = if q = p then ([], (s.pages q).data) else lists s q := by
  simp only [resolveConstantsOf] at h
  rw [ok_bind (s1 := s) (by rfl)] at h
  obtain ⟨_, s1, h1, h⟩ := bind_ok h
  cases h1
  have hi1 : Inv base (s.updPage p fun pg => { pg with constants := [] }) := hi.updPage fun _ => ⟨rfl, rfl⟩
  have g1 : Grow s (s.updPage p fun pg => { pg with constants := [] }) :=
    grow_updPage fun _ => ⟨rfl, rfl, rfl, rfl, rfl⟩
  have r := resolveList_ok hi1 (g1.slots hs) hp hn h
  refine ⟨(Resolved.nil g1 hi1 fun _ => rfl).trans r (by simp), ?_⟩
  intro q
  have hk := Keeps.resolveList (B := fun _ => True) p (s.pages p).constants (by simp) (s.updPage p fun pg => { pg with constants := [] })
  rw [h] at hk
  simp only [lists]
  have e1 := hk.constants q
  have e2 := hk.data q
  simp only [Res.state_ok] at e1 e2
  rw [e1, e2]
  simp only [JitMemory.updPage]
  split <;> rfl

theorem resolveDataOf_ok {s s' : JitMemory} (hi : Inv base s) (hs : Slots s) {p : Page}
    (hn : ((s.pages p).data.map Prod.snd).Nodup) (h : resolveDataOf p s = .ok () s') :
    Resolved base s s' ((s.pages p).data.map fun x => (DATA_PAGE, x.1, x.2))
    ∧ ∀ q, lists s' q = if q = p then ((s.pages q).constants, []) else lists s q := by
  simp only [resolveDataOf] at h
  rw [ok_bind (s1 := s) (by rfl)] at h
  obtain ⟨_, s1, h1, h⟩ := bind_ok h
  cases h1
  have hi1 : Inv base (s.updPage p fun pg => { pg with data := [] }) := hi.updPage fun _ => ⟨rfl, rfl⟩
  have g1 : Grow s (s.updPage p fun pg => { pg with data := [] }) :=
    grow_updPage fun _ => ⟨rfl, rfl, rfl, rfl, rfl⟩
  have r := resolveList_ok hi1 (g1.slots hs) (by decide : DATA_PAGE < 3) hn h
  refine ⟨(Resolved.nil g1 hi1 fun _ => rfl).trans r (by simp), ?_⟩
  intro q
  have hk := Keeps.resolveList (B := fun _ => True) DATA_PAGE (s.pages p).data (by simp) (s.updPage p fun pg => { pg with data := [] })
  rw [h] at hk
  simp only [lists]
  have e1 := hk.constants q
  have e2 := hk.data q
  simp only [Res.state_ok] at e1 e2
  rw [e1, e2]
  simp only [JitMemory.updPage]
  split <;> rfl

/-- `resolve_constants` followed by `resolve_data`. -/
theorem resolve_ok {s s1 s2 : JitMemory} (hi : Inv base s) (hs : Slots s)
    (hn : ((objects s).map fun x => x.2.2).Nodup)
    (h1 : resolve_constants s = .ok () s1) (h2 : resolve_data s1 = .ok () s2) :
    Resolved base s s2 (objects s) ∧ ∀ q, lists s2 q = if q = 0 ∨ q = 1 then ([], []) else lists s q := by
  simp only [resolve_constants] at h1
  simp only [resolve_data] at h2
  obtain ⟨_, a, ha, h1⟩ := bind_ok h1
  obtain ⟨_, b, hb, h2⟩ := bind_ok h2
  simp only [objects, List.map_append, List.map_map, Function.comp_def] at hn
  have n0 := (List.nodup_append.1 hn).1
  have hn1 := (List.nodup_append.1 hn).2
  have n1 := (List.nodup_append.1 hn1.1).1
  have hn2 := (List.nodup_append.1 hn1.1).2
  have n2 := (List.nodup_append.1 hn2.1).1
  have hn3 := (List.nodup_append.1 hn2.1).2
  obtain ⟨r0, l0⟩ := resolveConstantsOf_ok (p := 0) hi hs (by decide) n0 ha
  have e1 : (a.pages 1).constants = (s.pages 1).constants := congrArg Prod.fst (l0 1)
  obtain ⟨r1, l1⟩ := resolveConstantsOf_ok (p := 1) r0.inv (r0.grow.slots hs) (by decide) (by rw [e1]; exact n1) h1
  have e2 : (s1.pages 0).data = (s.pages 0).data := by
    have := congrArg Prod.snd ((l1 0).trans (by simpa using l0 0)); exact this
  obtain ⟨r2, l2⟩ := resolveDataOf_ok (p := 0) r1.inv (r1.grow.slots (r0.grow.slots hs)) (by rw [e2]; exact n2) hb
  have e3 : (b.pages 1).data = (s.pages 1).data := by
    have h1 : lists b 1 = lists s1 1 := by simpa using l2 1
    have h2 : lists s1 1 = ([], (a.pages 1).data) := by simpa using l1 1
    have h3 : lists a 1 = lists s 1 := by simpa using l0 1
    have h4 := congrArg Prod.snd (h1.trans h2)
    exact h4.trans (congrArg Prod.snd h3)
  obtain ⟨r3, l3⟩ := resolveDataOf_ok (p := 1) r2.inv (r2.grow.slots (r1.grow.slots (r0.grow.slots hs)))
    (by rw [e3]; exact hn3.1) h2
  rw [e1] at r1
  rw [e2] at r2
  rw [e3] at r3
  have mem : ∀ {p p' : Page} {d l} {xs : List (DataType × DestLabel)},
      (p', d, l) ∈ xs.map (fun x => (p, x.1, x.2)) → l ∈ xs.map fun x => x.2 := by
    intro p p' d l xs h
    obtain ⟨y, hy, e⟩ := List.mem_map.1 h
    simp only [Prod.mk.injEq] at e
    exact List.mem_map.2 ⟨y, hy, e.2.2⟩
  refine ⟨r0.trans (r1.trans (r2.trans r3 ?_) ?_) ?_, ?_⟩
  · intro p d l p' d' h h'
    exact hn3.2 _ (mem h) _ (mem h') rfl
  · intro p d l p' d' h h'
    refine hn2.2 _ (mem h) l ?_ rfl
    rcases List.mem_append.1 h' with h' | h'
    · exact List.mem_append_left _ (mem h')
    · exact List.mem_append_right _ (mem h')
  · intro p d l p' d' h h'
    refine hn1.2 _ (mem h) l ?_ rfl
    rcases List.mem_append.1 h' with h' | h'
    · exact List.mem_append_left _ (mem h')
    · rcases List.mem_append.1 h' with h' | h'
      · exact List.mem_append_right _ (List.mem_append_left _ (mem h'))
      · exact List.mem_append_right _ (List.mem_append_right _ (mem h'))
  · intro q
    rw [l3]
    by_cases q1 : q = 1
    · subst q1
      have : (b.pages 1).constants = [] := by
        have h1 : lists b 1 = lists s1 1 := by simpa using l2 1
        have h2 : lists s1 1 = ([], (a.pages 1).data) := by simpa using l1 1
        exact congrArg Prod.fst (h1.trans h2)
      simp [this]
    · rw [if_neg q1, l2]
      by_cases q0 : q = 0
      · subst q0
        have : (s1.pages 0).constants = [] := by
          have h1 : lists s1 0 = lists a 0 := by simpa using l1 0
          have h2 : lists a 0 = ([], (s.pages 0).data) := by simpa using l0 0
          exact congrArg Prod.fst (h1.trans h2)
        simp [this]
      · rw [if_neg q0, l1, if_neg q1, l0, if_neg q0]
        simp [q0, q1]

end
end Monoasm
