import Verif.Proofs.Fill
/-
  Effect of `finalize`.
-/

set_option linter.unusedSimpArgs false

namespace Monoasm
open JitMemory Spec

/-- Equal up to the records of finished code blocks. -/
structure Sim (s s' : JitMemory) : Prop where
  mem : s'.mem = s.mem
  labels : s'.labels = s.labels
  page : s'.page = s.page
  contents : ∀ p, (s'.pages p).contents = (s.pages p).contents
  counter : ∀ p, (s'.pages p).counter = (s.pages p).counter
  constants : ∀ p, (s'.pages p).constants = (s.pages p).constants
  data : ∀ p, (s'.pages p).data = (s.pages p).data

section
variable {base : Nat} {s s' : JitMemory}

theorem Sim.cursor (h : Sim s s') (p) : cursor s' p = Spec.cursor s p := h.counter p
theorem Sim.byteAt (h : Sim s s') (p pos) : byteAt s' p pos = Spec.byteAt s p pos := by
  simp only [Spec.byteAt, h.contents, h.mem]
theorem Sim.targets (h : Sim s s') (l) : targets s' l = Spec.targets s l := by
  simp only [Spec.targets, h.labels]
theorem Sim.locOf (h : Sim s s') (l) : s'.locOf l = s.locOf l := by
  simp only [JitMemory.locOf, h.labels]
theorem Sim.objects (h : Sim s s') : objects s' = Monoasm.objects s := by
  simp only [Monoasm.objects, h.constants, h.data]
theorem Sim.lists (h : Sim s s') (p) : lists s' p = Monoasm.lists s p := by
  simp only [Monoasm.lists, h.constants, h.data]
theorem Sim.inv (h : Sim s s') (hi : Inv base s) : Inv base s' :=
  ⟨fun p => by rw [h.contents, hi.contents], fun p => by rw [h.counter]; exact hi.counter p,
    by rw [h.page]; exact hi.page, by rw [h.labels]; exact hi.loc, by rw [h.labels]; exact hi.tgt⟩
theorem Sim.slots (h : Sim s s') (hs : Slots s) : Slots s' :=
  ⟨fun l t => by rw [h.targets, h.cursor]; exact hs.inside l t,
    fun l l' i i' t t' => by rw [h.targets, h.targets]; exact hs.apart l l' i i' t t',
    fun l t => by rw [h.targets, h.cursor]; exact hs.low l t,
    fun l t => by rw [h.targets]; exact hs.aligned l t,
    fun l l' t u => by rw [h.targets, h.targets]; exact hs.dead l l' t u⟩
theorem Sim.zeroed (h : Sim s s') (hs : Zeroed s) : Zeroed s' := by
  intro l t
  rw [h.targets]
  intro h1 h2 pos h3
  rw [h.byteAt]; exact hs l t h1 h2 pos h3
theorem Sim.settled (h : Sim s s') {p pos} (hs : Settled s p pos) : Settled s' p pos :=
  ⟨by rw [h.cursor]; exact hs.1, fun l t => by rw [h.targets]; exact hs.2 l t⟩

theorem sim_forPages {f : MemPage → MemPage} (hf : ∀ pg, (f pg).contents = pg.contents ∧ (f pg).counter = pg.counter
    ∧ (f pg).constants = pg.constants ∧ (f pg).data = pg.data) (h : forPages f s = .ok () s') : Sim s s' := by
  cases h
  refine ⟨rfl, rfl, rfl, ?_, ?_, ?_, ?_⟩ <;> intro p <;> simp only <;> split <;> simp [hf]

/-- Effect of a `finalize` that returns. -/
structure Finalized (base : Nat) (s s' : JitMemory) : Prop where
  inv : Inv base s'
  selected : s'.page = s.page
  cursor : ∀ p, Spec.cursor s p ≤ Spec.cursor s' p
  /-- the page records -/
  pages : ∀ p, p < 3 → s'.pages p =
    { contents := (s.pages p).contents
      counter := Spec.cursor s' p
      constants := if p = 0 ∨ p = 1 then [] else (s.pages p).constants
      data := if p = 0 ∨ p = 1 then [] else (s.pages p).data
      code_len := Spec.cursor s p
      code_block_top := Spec.cursor s' p
      code_block := (s.pages p).code_block ++ [((s.pages p).code_block_top, Spec.cursor s p, Spec.cursor s' p)] }
  lists : ∀ p, Monoasm.lists s' p = if p = 0 ∨ p = 1 then ([], []) else Monoasm.lists s p
  len : s'.labels.length = s.labels.length
  /-- labels of objects that were waiting are bound to an aligned position beyond the old cursor -/
  placed : ∀ p d l, (p, d, l) ∈ objects s → ∃ pos, s'.locOf l = some (p, pos) ∧ Spec.cursor s p ≤ pos
    ∧ pos + d.size ≤ Spec.cursor s' p ∧ d.align ∣ pos
    ∧ ((∀ x, d ≠ .absAddress x) → Spec.bytes s'.mem ((s'.pages p).contents + pos) d.size = d.value
        ∧ ∀ i, i < d.size → Settled s' p (pos + i))
    ∧ (∀ x, d = .absAddress x → (s'.locOf x = none ∧ TargetType.abs p pos ∈ targets s' x)
        ∨ ∃ q c, s'.locOf x = some (q, c)
          ∧ Spec.bytes s'.mem ((s'.pages p).contents + pos) 8 = littleEndian 8 (BitVec.ofNat 64 ((s'.pages q).contents + c)).toNat
          ∧ ∀ i, i < 8 → Settled s' p (pos + i))
  /-- their ranges do not overlap -/
  apart : ∀ p d l pos p' d' l' pos', (p, d, l) ∈ objects s → (p', d', l') ∈ objects s → l ≠ l' →
    s'.locOf l = some (p, pos) → s'.locOf l' = some (p', pos') →
    p ≠ p' ∨ pos + d.size ≤ pos' ∨ pos' + d'.size ≤ pos
  /-- no other label moves -/
  others : ∀ l, (∀ p d, (p, d, l) ∉ objects s) → s'.locOf l = s.locOf l
  /-- every field of a label that is bound now holds its value -/
  fields : ∀ l p c t, s'.locOf l = some (p, c) → t ∈ targets s l → Live t ∧
    FitsRel (contentsOf s') ((s'.pages p).contents + c) t ∧
    Spec.bytes s'.mem ((s'.pages t.page).contents + t.pos) t.size = slotBytes (contentsOf s') ((s'.pages p).contents + c) t
  /-- and will not be written again -/
  filled : ∀ l t, s'.locOf l ≠ none → t ∈ targets s l → ∀ pos, Covers t t.page pos → Settled s' t.page pos
  /-- the fields of the others are still waiting -/
  unbound : ∀ l, s'.locOf l = none → ∃ ts, targets s' l = targets s l ++ ts ∧ ∀ t ∈ ts, Spec.cursor s t.page ≤ t.pos
  bound : ∀ l, s'.locOf l ≠ none → targets s' l = []
  settled : ∀ p pos, Settled s p pos → Settled s' p pos ∧ byteAt s' p pos = byteAt s p pos
  /-- emitted bytes outside the fields of bound labels do not change -/
  frame : ∀ p pos, pos < Spec.cursor s p → (∀ l t, s'.locOf l ≠ none → t ∈ targets s l → ¬ Covers t p pos) →
    byteAt s' p pos = byteAt s p pos
  slots : Slots s'
  zeroed : Zeroed s → Zeroed s'

theorem bytes_of_at {m : Nat → Byte} {a : Nat} {bs : List Byte} {n : Nat} (hn : bs.length = n)
    (h : ∀ i, (hi : i < bs.length) → m (a + i) = bs[i]) : Spec.bytes m a n = bs := by
  subst hn
  exact (bytesAt_eq_iff m a bs).2 h

theorem value_length (d : DataType) : d.value.length = d.size := by
  cases d <;> simp [DataType.value, DataType.size, littleEndian]

theorem modify_last {α} (xs : List α) (a : α) (f : α → α) : (xs ++ [a]).modify xs.length f = xs ++ [f a] := by
  induction xs with
  | nil => rfl
  | cons x xs ih => simp only [List.cons_append, List.length_cons, List.modify_succ_cons, ih]

theorem finalize_ok (hi : Inv base s) (hs : Slots s) (hn : ((objects s).map fun x => x.2.2).Nodup)
    (h : finalize s = .ok () s') : Finalized base s s' := by
  simp only [finalize] at h
  obtain ⟨_, sa, ha, h⟩ := bind_ok h
  obtain ⟨_, sr, hr, h⟩ := bind_ok h
  obtain ⟨_, sb, hb, h⟩ := bind_ok h
  obtain ⟨_, sc, hc, h⟩ := bind_ok h
  obtain ⟨_, sd, hd, he⟩ := bind_ok h
  have ma : Sim s sa := sim_forPages (f := openBlock) (fun _ => ⟨rfl, rfl, rfl, rfl⟩) ha
  have mc : Sim sb sc := sim_forPages (f := closeBlock) (fun _ => ⟨rfl, rfl, rfl, rfl⟩) hc
  have me : Sim sd s' := sim_forPages (f := topBlock) (fun _ => ⟨rfl, rfl, rfl, rfl⟩) he
  obtain ⟨r, hlists⟩ := resolve_ok (ma.inv hi) (ma.slots hs) (by rw [ma.objects]; exact hn) hr hb
  rw [ma.objects] at r
  have hsb : Slots sb := r.grow.slots (ma.slots hs)
  have hsc := mc.slots hsb
  have hic := mc.inv r.inv
  have f := fill_ok hic hsc hd
  have hid : Inv base sd := by
    have := safe_fill_relocs (base := base) (ro := False) (ps := fun _ => True) (fun _ => trivial) sc hic trivial
    rw [hd] at this; exact this.1.inv
  -- derived equalities
  have hcur : ∀ p, Spec.cursor s' p = Spec.cursor sb p := fun p => by
    rw [me.cursor]; simp only [Spec.cursor, f.pages]; exact mc.cursor p
  have hcur0 : ∀ p, Spec.cursor s p = Spec.cursor sa p := fun p => (ma.cursor p).symm
  have hloc : ∀ l, s'.locOf l = sb.locOf l := fun l => by rw [me.locOf, f.locOf, mc.locOf]
  have hcont : ∀ p, (s'.pages p).contents = (s.pages p).contents := fun p => by
    rw [me.contents, f.pages, mc.contents, r.grow.contents, ma.contents]
  have hcont' : ∀ p, (s'.pages p).contents = (sc.pages p).contents := fun p => by rw [me.contents, f.pages]
  have hcO : contentsOf s' = contentsOf sc := funext hcont'
  have htc : ∀ l, targets sc l = targets sb l := mc.targets
  have ht' : ∀ l, targets s' l = if s'.locOf l = none then targets sb l else [] := fun l => by
    rw [me.targets, f.targets, htc, hloc, mc.locOf]
  have hgt : ∀ l, ∃ ts, targets sb l = targets s l ++ ts ∧ ∀ t ∈ ts, Spec.cursor s t.page ≤ t.pos := fun l => by
    obtain ⟨ts, e, h⟩ := r.grow.targets l
    exact ⟨ts, by rw [e, ma.targets], fun t ht => by rw [hcur0]; exact h t ht⟩
  have hsettle : ∀ {p pos}, Settled sb p pos → Settled s' p pos ∧ byteAt s' p pos = byteAt sb p pos := by
    intro p pos h
    have h1 := f.settled hic (mc.settled h)
    exact ⟨me.settled h1.1, by rw [me.byteAt, h1.2, mc.byteAt]⟩
  have hfield : ∀ l p c t, s'.locOf l = some (p, c) → t ∈ targets sb l → Live t ∧
      FitsRel (contentsOf s') ((s'.pages p).contents + c) t ∧
      Spec.bytes s'.mem ((s'.pages t.page).contents + t.pos) t.size
        = slotBytes (contentsOf s') ((s'.pages p).contents + c) t := by
    intro l p c t hl ht
    rw [hloc, ← mc.locOf] at hl
    rw [← htc] at ht
    rw [hcO, hcont', hcont', me.mem]
    exact f.fields l p c t hl ht
  have hfilled : ∀ l t, s'.locOf l ≠ none → t ∈ targets sb l → ∀ pos, Covers t t.page pos → Settled s' t.page pos := by
    intro l t hl ht pos hc
    cases e : s'.locOf l with
    | none => exact absurd e hl
    | some pc =>
      have live := (hfield l pc.1 pc.2 t e ht).1
      refine ⟨?_, ?_⟩
      · rw [hcur]; exact Nat.lt_of_lt_of_le hc.2.2 (hsb.inside l t ht live)
      · intro l2 t2 ht2 live2 hc2
        rw [ht'] at ht2
        split at ht2
        case isFalse => cases ht2
        rename_i hn
        have hne : l ≠ l2 := by rintro rfl; exact hl hn
        obtain ⟨i, h1⟩ := List.mem_iff_getElem?.1 ht
        obtain ⟨i2, h2⟩ := List.mem_iff_getElem?.1 ht2
        have hap := hsb.apart l l2 i i2 t t2 h1 h2 (.inl hne) live live2
        obtain ⟨c1, c2, c3⟩ := hc
        obtain ⟨d1, d2, d3⟩ := hc2
        rcases hap with h | h | h
        · exact h d1.symm
        · omega
        · omega
  refine
    { inv := me.inv hid
      selected := ?_
      cursor := fun p => by rw [hcur, hcur0]; exact r.grow.cursor p
      pages := ?_
      lists := fun p => by
        rw [me.lists]
        have : Monoasm.lists sd p = Monoasm.lists sc p := by simp only [Monoasm.lists, f.pages]
        rw [this, mc.lists, hlists, ma.lists]
      len := ?_
      placed := ?_
      apart := ?_
      others := ?_
      fields := ?_
      filled := ?_
      unbound := ?_
      bound := ?_
      settled := ?_
      frame := ?_
      slots := me.slots (f.slots hsc)
      zeroed := ?_ }
  · have := (safe_finalize (base := base) (ro := False) (ps := fun _ => True) (fun _ => trivial) s hi trivial).1.page
    rw [finalize, ok_bind ha, ok_bind hr, ok_bind hb, ok_bind hc, ok_bind hd, he] at this
    exact this
  · intro p hp
    have e1 : sa.pages p = openBlock (s.pages p) := by cases ha; simp [hp]
    have e2 : sc.pages p = closeBlock (sb.pages p) := by cases hc; simp [hp]
    have e3 : s'.pages p = topBlock (sd.pages p) := by cases he; simp [hp]
    have hl := hlists p
    have hl0 := ma.lists p
    have hcont1 := r.grow.contents p
    have hlen := r.grow.code_len p
    have htop := r.grow.code_block_top p
    have hblk := r.grow.code_block p
    rw [e1] at hlen htop hblk hcont1
    rw [e3, f.pages, e2]
    have hcur' : Spec.cursor s' p = (sb.pages p).counter := hcur p
    simp only [topBlock, closeBlock, hcur', hblk, hlen, hcont1, openBlock, htop, Spec.cursor]
    have hc1 : (sb.pages p).constants = if p = 0 ∨ p = 1 then [] else (s.pages p).constants := by
      have := congrArg Prod.fst hl
      simp only [lists] at this
      rw [this]
      split
      · rfl
      · simp only [ma.constants]
    have hd1 : (sb.pages p).data = if p = 0 ∨ p = 1 then [] else (s.pages p).data := by
      have := congrArg Prod.snd hl
      simp only [lists] at this
      rw [this]
      split
      · rfl
      · simp only [ma.data]
    rw [hc1, hd1]
    have hcur2 : (s'.pages p).counter = (sb.pages p).counter := hcur'
    rw [hcur2]
    simp [modify_last]
  · have hk := (keepF_finalize (s := s) (s' := s') (by
      rw [finalize, ok_bind ha, ok_bind hr, ok_bind hb, ok_bind hc, ok_bind hd, he])).len
    exact hk
  · intro p d l hm
    obtain ⟨pos, hp, hge⟩ := r.placed p d l hm
    refine ⟨pos, by rw [hloc]; exact hp.loc, by rw [hcur0]; exact hge, by rw [hcur]; exact hp.fits, hp.aligned, ?_, ?_⟩
    · intro hx
      refine ⟨bytes_of_at (value_length d) fun i hi => ?_, fun i hi => ?_⟩
      · have h1 := hp.bytes hx i hi
        have h2 := hsettle h1.2
        have := h2.2.trans h1.1
        rw [← this, byteAt, Nat.add_assoc]
      · have h1 := hp.bytes hx i (by rw [value_length]; exact hi)
        exact (hsettle h1.2).1
    · intro x hx
      have hslot := hp.slot x hx
      cases e : s'.locOf x with
      | none => exact .inl ⟨rfl, by rw [ht', if_pos e]; exact hslot⟩
      | some qc =>
        refine .inr ⟨qc.1, qc.2, rfl, ?_⟩
        refine ⟨(hfield x qc.1 qc.2 _ e hslot).2.2, fun i hi => ?_⟩
        exact hfilled x (.abs p pos) (by rw [e]; simp) hslot (pos + i)
          ⟨rfl, Nat.le_add_right _ _, Nat.add_lt_add_left hi pos⟩
  · intro p d l pos p' d' l' pos' h1 h2 hne k1 k2
    obtain ⟨q, hp, _⟩ := r.placed p d l h1
    obtain ⟨q', hp', _⟩ := r.placed p' d' l' h2
    have e1 := hp.loc
    have e2 := hp'.loc
    rw [hloc] at k1 k2
    rw [k1] at e1
    rw [k2] at e2
    cases e1; cases e2
    exact r.apart p d l pos p' d' l' pos' h1 h2 hne hp hp'
  · intro l hl
    rw [hloc, r.others l hl, ma.locOf]
  · intro l p c t hl ht
    obtain ⟨ts, e, _⟩ := hgt l
    exact hfield l p c t hl (by rw [e]; exact List.mem_append_left _ ht)
  · intro l t hl ht
    obtain ⟨ts, e, _⟩ := hgt l
    exact hfilled l t hl (by rw [e]; exact List.mem_append_left _ ht)
  · intro l hl
    obtain ⟨ts, e, he⟩ := hgt l
    exact ⟨ts, by rw [ht', if_pos hl, e], he⟩
  · intro l hl
    rw [ht', if_neg hl]
  · intro p pos hp
    have h1 := settled_grow (ma.settled hp) r.grow
    have h2 := hsettle h1.1
    exact ⟨h2.1, by rw [h2.2, h1.2, ma.byteAt]⟩
  · intro p pos hp hno
    rw [me.byteAt]
    have e0 : byteAt sc p pos = byteAt s p pos := by
      rw [mc.byteAt, r.grow.mem p pos (by rw [← hcur0]; exact hp), ma.byteAt]
    rw [← e0]
    simp only [byteAt, f.pages]
    apply f.frame
    intro l t hl ht
    cases e : sc.locOf l with
    | none => exact absurd e hl
    | some pc =>
      have live := (f.fields l pc.1 pc.2 t e ht).1
      have hncov : ¬ Covers t p pos := by
        rw [htc] at ht
        obtain ⟨ts, e', hts⟩ := hgt l
        rw [e'] at ht
        rcases List.mem_append.1 ht with ht | ht
        · refine hno l t ?_ ht
          rw [hloc, ← mc.locOf]; exact hl
        · have := hts t ht
          rintro ⟨e1, h1, h2⟩
          rw [e1] at this
          omega
      simp only [Covers] at hncov
      simp only [Live] at live
      have h1 : pos < PAGE_SIZE := Nat.lt_of_lt_of_le hp (hi.counter p)
      rw [hic.contents, hic.contents]
      have key : ∀ (p q : Nat) (a n : Nat), ¬ (q = p ∧ a ≤ pos ∧ pos < a + n) → a + n ≤ PAGE_SIZE →
          base + PAGE_SIZE * p + pos < base + PAGE_SIZE * q + a ∨ base + PAGE_SIZE * q + a + n ≤ base + PAGE_SIZE * p + pos := by
        intro p q a n k1 k2
        rw [PAGE_SIZE_eq] at *
        omega
      exact key _ _ _ _ hncov live
  · intro hz
    have hzc : Zeroed sc := mc.zeroed (r.grow.zeroed (ma.slots hs) (ma.zeroed hz))
    apply me.zeroed
    intro l t ht live pos hcov
    have ht0 : t ∈ targets sc l ∧ sc.locOf l = none := by
      rw [f.targets] at ht
      split at ht
      · exact ⟨ht, by assumption⟩
      · cases ht
    -- the field is apart from all the fields that were filled
    have e0 := hzc l t ht0.1 live pos hcov
    rw [← e0]
    simp only [byteAt, f.pages]
    apply f.frame
    intro l' t2 hl' ht2
    have hne : l ≠ l' := by rintro rfl; exact hl' ht0.2
    cases e : sc.locOf l' with
    | none => exact absurd e hl'
    | some pc =>
      have live2 := (f.fields l' pc.1 pc.2 t2 e ht2).1
      obtain ⟨i, hi'⟩ := List.mem_iff_getElem?.1 ht0.1
      obtain ⟨i2, hi2⟩ := List.mem_iff_getElem?.1 ht2
      have hap := hsc.apart l l' i i2 t t2 hi' hi2 (.inl hne) live live2
      simp only [Covers] at hcov
      simp only [Live] at live live2
      rw [hic.contents, hic.contents]
      have key : ∀ (p q : Nat) (a b n m : Nat), p ≠ q ∨ a + n ≤ b ∨ b + m ≤ a → a + n ≤ PAGE_SIZE → b + m ≤ PAGE_SIZE →
          a ≤ pos → pos < a + n → base + PAGE_SIZE * p + pos < base + PAGE_SIZE * q + b ∨ base + PAGE_SIZE * q + b + m ≤ base + PAGE_SIZE * p + pos := by
        intro p q a b n m k1 k2 k3 k4 k5
        rw [PAGE_SIZE_eq] at *
        omega
      exact key _ _ _ _ _ _ hap live live2 hcov.2.1 hcov.2.2

end
end Monoasm
